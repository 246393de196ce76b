import Verif.Model.RoundMem
import Verif.Lemmas.Whole
/-
The rounds of `RoundMem` against those of `Gather` and `SignPhase`.
-/
namespace Horcrux
open Spec

/-! ### First half -/

/-- The goroutine of a peer holds the lock. -/
def PeerAt.holds : PeerAt → Bool
  | .tests | .writes | .unlocks _ => true
  | _ => false

/-- The call to the peer is outstanding, or its answer has not been taken in yet. -/
def PeerAt.early : PeerAt → Bool
  | .calling | .locks | .tests | .writes => true
  | _ => false

/-- Its `Done` is due. -/
def PeerAt.due : PeerAt → Bool
  | .unlocks true | .finishes => true
  | _ => false

/-- The main goroutine holds the lock. -/
def LeadAt.holds : LeadAt → Bool
  | .writes | .unlocks => true
  | _ => false

/-- Where the main goroutine is in `Gather`. -/
def LeadAt.abs : LeadAt → MainAt
  | .making => .making
  | .waiting | .locks | .writes => .waiting
  | .failed => .failed
  | .timedOut => .timedOut
  | .unlocks | .past => .proceeded

/-- The memory `s` corresponds to the state `g`. -/
structure GetSim (t me : Nat) (past : List Nat) (s : GetMem) (g : Gather) : Prop where
  inv : GatherInv t me past g
  map : g.shared.joined = s.map
  counter : g.shared.counter = s.counter
  due : ∀ p, p ∈ g.shared.due ↔ (s.peer p).due = true
  asked : ∀ p, p ∈ g.asked ↔ (s.peer p).early = true
  main : g.main = s.lead.abs
  waiter : g.waiter = s.waiter
  woken : s.lead = .locks ∨ s.lead = .writes → s.waiter = false
  room : ∀ p, s.peer p = .writes → (s.map.length : Int) < (t : Int) - 1
  held : ∀ p, (s.peer p).holds = true → s.locked = true
  heldL : s.lead.holds = true → s.locked = true
  one : ∀ p q, (s.peer p).holds = true → (s.peer q).holds = true → p = q
  oneL : ∀ p, (s.peer p).holds = true → s.lead.holds = false

theorem getSim_start {t me : Nat} (ht : 1 ≤ t) {peers : List Nat} (hnd : peers.Nodup) :
    ∃ s g, GetMem.start t peers = .ok s ∧ Gather.start t peers = .ok g ∧ GetSim t me [] s g := by
  obtain ⟨g, h1, h2, h3⟩ := gatherInv_start (me := me) ht hnd
  refine ⟨⟨[], (t : Int) - 1, false, fun p => if p ∈ peers then .calling else .ended, .making, false⟩, g, ?_, h1, ?_⟩
  · unfold GetMem.start; rw [if_neg (by omega)]
  have hg : g = ⟨⟨[], (t : Int) - 1, [], false⟩, peers, .making, false⟩ := by
    unfold Gather.start Collect.start at h1
    rw [if_neg (by omega)] at h1
    simp only [Out.ok.injEq] at h1
    exact h1.symm
  subst hg
  have hh : ∀ p, (if p ∈ peers then PeerAt.calling else PeerAt.ended).holds = false := by
    intro p; split <;> rfl
  refine ⟨h2, rfl, rfl, ?_, ?_, rfl, rfl, by simp, ?_, ?_, by simp [LeadAt.holds], ?_, ?_⟩
  · intro p; simp only [List.not_mem_nil, false_iff]; split <;> simp [PeerAt.due]
  · intro p; simp only; split <;> simp_all [PeerAt.early]
  · intro p; simp only; split <;> simp
  · intro p h; simp only at h; rw [hh] at h; cases h
  · intro p q h; simp only at h; rw [hh] at h; cases h
  · intro p h; simp only at h; rw [hh] at h; cases h

/-- The goroutine of a peer goes on without touching what is shared. -/
theorem GetSim.move {t me : Nat} {past : List Nat} {s : GetMem} {g : Gather} (h : GetSim t me past s g) {p : Nat} {a : PeerAt}
    (h1 : a.holds = (s.peer p).holds) (h2 : a.early = (s.peer p).early) (h3 : a.due = (s.peer p).due)
    (h4 : a = .writes → (s.map.length : Int) < (t : Int) - 1) : GetSim t me past (s.at p a) g := by
  have hq : ∀ q, ((s.at p a).peer q).holds = (s.peer q).holds ∧ ((s.at p a).peer q).early = (s.peer q).early ∧
      ((s.at p a).peer q).due = (s.peer q).due := by
    intro q
    simp only [GetMem.at]
    by_cases hqp : q = p
    · subst hqp; rw [if_pos rfl]; exact ⟨h1, h2, h3⟩
    · rw [if_neg hqp]; exact ⟨rfl, rfl, rfl⟩
  refine ⟨h.inv, h.map, h.counter, fun q => by rw [(hq q).2.2]; exact h.due q, fun q => by rw [(hq q).2.1]; exact h.asked q,
    h.main, h.waiter, h.woken, ?_, fun q hh => h.held q (by rw [← (hq q).1]; exact hh), h.heldL,
    fun q r a b => h.one q r (by rw [← (hq q).1]; exact a) (by rw [← (hq r).1]; exact b),
    fun q a => h.oneL q (by rw [← (hq q).1]; exact a)⟩
  intro q hh
  simp only [GetMem.at] at hh ⊢
  by_cases hqp : q = p
  · rw [if_pos hqp] at hh; exact h4 hh
  · rw [if_neg hqp] at hh; exact h.room q hh

theorem gather_run_one {t : Int} {me : Nat} {g g' : Gather} {e : GatherEv} (h : g.step t me e = .ok g') :
    Gather.run t me g [e] = .ok g' := by
  simp only [Gather.run, h]

theorem answering_sub (past asked : List Nat) (e : GatherEv) :
    ∀ q ∈ past ++ answering asked [e], q ∈ past ∨ q ∈ asked := by
  intro q hq
  rcases List.mem_append.1 hq with hq | hq
  · exact .inl hq
  · rcases answering_one asked e with h0 | ⟨p, _, hp, h0⟩
    · rw [h0] at hq; cases hq
    · rw [h0, List.mem_singleton] at hq; subst hq; exact .inr hp

/-- A step `x` of `Gather` for the step `e` stands for what a goroutine has been told. -/
def GetMem.causes (s : GetMem) (e : GetEv) : GatherEv → Prop
  | .failed p => e = .call p false
  | .answered p => s.peer p = .tests ∨ s.peer p = .writes
  | .own ok => e = .own ok
  | _ => True

/-- Every step is none or one step of `Gather`. -/
theorem getSim_step {t me : Nat} (ht : 1 ≤ t) {past : List Nat} {s : GetMem} {g : Gather} (h : GetSim t me past s g)
    (e : GetEv) :
    ∃ s' es g' past', s.step t me e = .ok s' ∧ Gather.run t me g es = .ok g' ∧
      (∀ x ∈ es, s.causes e x) ∧ (∀ q ∈ past', q ∈ past ∨ q ∈ g.asked) ∧ GetSim t me past' s' g' := by
  have stay : ∀ {s' : GetMem}, s.step t me e = .ok s' → GetSim t me past s' g →
      ∃ s' es g' past', s.step t me e = .ok s' ∧ Gather.run t me g es = .ok g' ∧
      (∀ x ∈ es, s.causes e x) ∧ (∀ q ∈ past', q ∈ past ∨ q ∈ g.asked) ∧ GetSim t me past' s' g' :=
    fun h1 h2 => ⟨_, [], g, past, h1, rfl, by simp, fun _ h => .inl h, h2⟩
  cases e with
  | call p ok =>
    by_cases hp : s.peer p = .calling
    · cases ok with
      | true =>
        refine stay (s' := s.at p .locks) (by simp only [GetMem.step]; rw [if_pos hp]; rfl) (h.move ?_ ?_ ?_ (by simp)) <;>
          (rw [hp]; rfl)
      | false =>
        have hin : p ∈ g.asked := (h.asked p).2 (by rw [hp]; rfl)
        obtain ⟨g', hg, hi, _⟩ := gatherInv_step ht h.inv (.failed p)
        refine ⟨s.at p .ended, [.failed p], g', past ++ answering g.asked [.failed p], by simp only [GetMem.step]; rw [if_pos hp]; rfl, gather_run_one hg, by simp [GetMem.causes, *], answering_sub _ _ _, ?_⟩
        simp only [Gather.step, if_pos hin, Out.ok.injEq] at hg
        subst hg
        have hna : g.asked.Nodup := (List.nodup_append.1 h.inv.nodup).2.1
        have hq : ∀ q, q ≠ p → (s.at p .ended).peer q = s.peer q := fun q hq => by simp only [GetMem.at]; rw [if_neg hq]
        have hpp : (s.at p .ended).peer p = .ended := by simp only [GetMem.at]; rw [if_pos trivial]
        have hk : ∀ q, ((s.at p .ended).peer q).holds = true → q ≠ p ∧ (s.peer q).holds = true := by
          intro q hh
          have hqp : q ≠ p := by rintro rfl; rw [hpp] at hh; cases hh
          exact ⟨hqp, by rw [← hq q hqp]; exact hh⟩
        refine ⟨hi, h.map, h.counter, ?_, ?_, h.main, h.waiter, h.woken, ?_, fun q hh => h.held q (hk q hh).2, h.heldL,
          fun q r a b => h.one q r (hk q a).2 (hk r b).2, fun q a => h.oneL q (hk q a).2⟩
        · intro q
          by_cases hqp : q = p
          · subst hqp
            rw [hpp, h.due, hp]; simp [PeerAt.due]
          · rw [hq q hqp]; exact h.due q
        · intro q
          simp only
          rw [hna.mem_erase_iff, h.asked]
          by_cases hqp : q = p
          · subst hqp; rw [hpp]; simp [PeerAt.early]
          · rw [hq q hqp]; simp [hqp]
        · intro q hh
          have hqp : q ≠ p := by rintro rfl; rw [hpp] at hh; cases hh
          rw [hq q hqp] at hh
          exact h.room q hh
    · exact stay (by simp only [GetMem.step]; rw [if_neg hp]) h
  | peer p =>
    have hat : ∀ (a : PeerAt) q, q ≠ p → (s.at p a).peer q = s.peer q := fun a q hq => by
      simp only [GetMem.at]; rw [if_neg hq]
    have hpp : ∀ a : PeerAt, (s.at p a).peer p = a := fun a => by simp only [GetMem.at]; rw [if_pos trivial]
    cases hp : s.peer p with
    | calling => exact stay (s' := s) (by simp only [GetMem.step, GetMem.peerStep, hp]) h
    | ended => exact stay (s' := s) (by simp only [GetMem.step, GetMem.peerStep, hp]) h
    | locks =>
      cases hl : s.locked with
      | true => exact stay (s' := s) (by simp only [GetMem.step, GetMem.peerStep, hp, hl, if_true]) h
      | false =>
        have hno : ∀ q, (s.peer q).holds = false := fun q => by
          cases hh : (s.peer q).holds with
          | false => rfl
          | true => rw [h.held q hh] at hl; cases hl
        have hnl : s.lead.holds = false := by
          cases hh : s.lead.holds with
          | false => rfl
          | true => rw [h.heldL hh] at hl; cases hl
        have hk : ∀ q, ((s.at p .tests).peer q).holds = true → q = p := by
          intro q hh
          by_contra hqp
          rw [hat _ q hqp, hno] at hh; cases hh
        refine stay (s' := { s.at p .tests with locked := true })
          (by simp only [GetMem.step, GetMem.peerStep, hp, hl, Bool.false_eq_true, if_false])
          ⟨h.inv, h.map, h.counter, ?_, ?_, h.main, h.waiter, h.woken, ?_, fun _ _ => rfl, fun _ => rfl,
            fun q r a b => (hk q a).trans (hk r b).symm, fun _ _ => hnl⟩
        · intro q
          by_cases hqp : q = p
          · subst hqp; simp only [hpp]; rw [h.due, hp]; simp [PeerAt.due]
          · simp only [hat _ q hqp]; exact h.due q
        · intro q
          by_cases hqp : q = p
          · subst hqp; simp only [hpp]; rw [h.asked, hp]; simp [PeerAt.early]
          · simp only [hat _ q hqp]; exact h.asked q
        · intro q hh
          by_cases hqp : q = p
          · subst hqp; simp only [hpp] at hh; cases hh
          · simp only [hat _ q hqp] at hh; exact h.room q hh
    | tests =>
      have hin : p ∈ g.asked := (h.asked p).2 (by rw [hp]; rfl)
      by_cases hroom : (s.map.length : Int) < (t : Int) - 1
      · refine stay (s' := s.at p .writes) (by simp only [GetMem.step, GetMem.peerStep, hp]; rw [if_pos hroom])
          (h.move ?_ ?_ ?_ (fun _ => hroom)) <;> (rw [hp]; rfl)
      · obtain ⟨g', hg, hi, _⟩ := gatherInv_step ht h.inv (.answered p)
        refine ⟨s.at p (.unlocks false), [.answered p], g', past ++ answering g.asked [.answered p],
          by simp only [GetMem.step, GetMem.peerStep, hp]; rw [if_neg hroom], gather_run_one hg, by simp [GetMem.causes, *], answering_sub _ _ _, ?_⟩
        simp only [Gather.step, if_pos hin, Gather.shareStep, Collect.step, h.map] at hg
        rw [if_neg hroom] at hg
        simp only [Out.ok.injEq] at hg
        subst hg
        have hna : g.asked.Nodup := (List.nodup_append.1 h.inv.nodup).2.1
        have hk : ∀ q, ((s.at p (.unlocks false)).peer q).holds = true → (s.peer q).holds = true := by
          intro q hh
          by_cases hqp : q = p
          · subst hqp; rw [hp]; rfl
          · rw [hat _ q hqp] at hh; exact hh
        refine ⟨hi, h.map, h.counter, ?_, ?_, h.main, h.waiter, h.woken, ?_, fun q hh => h.held q (hk q hh), h.heldL,
          fun q r a b => h.one q r (hk q a) (hk r b), fun q a => h.oneL q (hk q a)⟩
        · intro q
          by_cases hqp : q = p
          · subst hqp; rw [hpp, h.due, hp]; simp [PeerAt.due]
          · rw [hat _ q hqp]; exact h.due q
        · intro q
          simp only
          rw [hna.mem_erase_iff, h.asked]
          by_cases hqp : q = p
          · subst hqp; rw [hpp]; simp [PeerAt.early]
          · rw [hat _ q hqp]; simp [hqp]
        · intro q hh
          by_cases hqp : q = p
          · subst hqp; rw [hpp] at hh; cases hh
          · rw [hat _ q hqp] at hh; exact h.room q hh
    | writes =>
      have hin : p ∈ g.asked := (h.asked p).2 (by rw [hp]; rfl)
      have hroom := h.room p hp
      obtain ⟨g', hg, hi, _⟩ := gatherInv_step ht h.inv (.answered p)
      refine ⟨{ s.at p (.unlocks true) with map := s.map ++ [p] }, [.answered p], g', past ++ answering g.asked [.answered p],
        by simp only [GetMem.step, GetMem.peerStep, hp], gather_run_one hg, by simp [GetMem.causes, *], answering_sub _ _ _, ?_⟩
      simp only [Gather.step, if_pos hin, Gather.shareStep, Collect.step, h.map] at hg
      rw [if_pos hroom] at hg
      simp only [Out.ok.injEq] at hg
      subst hg
      have hna : g.asked.Nodup := (List.nodup_append.1 h.inv.nodup).2.1
      have hk : ∀ q, ((s.at p (.unlocks true)).peer q).holds = true → (s.peer q).holds = true := by
        intro q hh
        by_cases hqp : q = p
        · subst hqp; rw [hp]; rfl
        · rw [hat _ q hqp] at hh; exact hh
      refine ⟨hi, rfl, h.counter, ?_, ?_, h.main, h.waiter, h.woken, ?_, fun q hh => h.held q (hk q hh), h.heldL,
        fun q r a b => h.one q r (hk q a) (hk r b), fun q a => h.oneL q (hk q a)⟩
      · intro q
        by_cases hqp : q = p
        · subst hqp; simp only [hpp]; simp [PeerAt.due]
        · simp only [hat _ q hqp]; rw [← h.due q]; simp [hqp]
      · intro q
        simp only
        rw [hna.mem_erase_iff, h.asked]
        by_cases hqp : q = p
        · subst hqp; rw [hpp]; simp [PeerAt.early]
        · rw [hat _ q hqp]; simp [hqp]
      · intro q hh
        by_cases hqp : q = p
        · subst hqp; simp only [hpp] at hh; cases hh
        · simp only [hat _ q hqp] at hh
          exact absurd (h.one q p (by rw [hh]; rfl) (by rw [hp]; rfl)) hqp
    | unlocks b =>
      have hlead : s.lead.holds = false := h.oneL p (by rw [hp]; rfl)
      have hk : ∀ q, ((s.at p (if b then .finishes else .ended)).peer q).holds = false := by
        intro q
        by_cases hqp : q = p
        · subst hqp; rw [hpp]; cases b <;> rfl
        · rw [hat _ q hqp]
          cases hh : (s.peer q).holds with
          | false => rfl
          | true => exact absurd (h.one q p hh (by rw [hp]; rfl)) hqp
      refine stay (s' := { s.at p (if b then .finishes else .ended) with locked := false })
        (by simp only [GetMem.step, GetMem.peerStep, hp])
        ⟨h.inv, h.map, h.counter, ?_, ?_, h.main, h.waiter, h.woken, ?_, fun q hh => (by rw [hk] at hh; exact absurd hh (by simp)),
          fun hh => (by simp only [GetMem.at] at hh; rw [hlead] at hh; exact absurd hh (by simp)),
          fun q _ a => (by rw [hk] at a; exact absurd a (by simp)), fun q a => (by rw [hk] at a; exact absurd a (by simp))⟩
      · intro q
        by_cases hqp : q = p
        · subst hqp; simp only [hpp]; rw [h.due, hp]; cases b <;> simp [PeerAt.due]
        · simp only [hat _ q hqp]; exact h.due q
      · intro q
        by_cases hqp : q = p
        · subst hqp; simp only [hpp]; rw [h.asked, hp]; cases b <;> simp [PeerAt.early]
        · simp only [hat _ q hqp]; exact h.asked q
      · intro q hh
        by_cases hqp : q = p
        · subst hqp; simp only [hpp] at hh; cases b <;> cases hh
        · simp only [hat _ q hqp] at hh; exact h.room q hh
    | finishes =>
      have hin : p ∈ g.shared.due := (h.due p).2 (by rw [hp]; rfl)
      obtain ⟨g', hg, hi, _⟩ := gatherInv_step ht h.inv (.done p)
      have hg' := hg
      simp only [Gather.step, Gather.shareStep, Collect.step, if_pos hin] at hg
      by_cases hneg : g.shared.counter - 1 < 0
      · rw [if_pos hneg] at hg; cases hg
      rw [if_neg hneg] at hg
      simp only [Out.ok.injEq] at hg
      subst hg
      have hk : ∀ q, ((s.at p .ended).peer q).holds = true → q ≠ p ∧ (s.peer q).holds = true := by
        intro q hh
        have hqp : q ≠ p := by rintro rfl; rw [hpp] at hh; cases hh
        exact ⟨hqp, by rw [← hat .ended q hqp]; exact hh⟩
      refine ⟨{ s.at p .ended with counter := s.counter - 1 }, [.done p], _, past ++ answering g.asked [.done p],
        by simp only [GetMem.step, GetMem.peerStep, hp]; rw [if_neg (by rw [← h.counter]; exact hneg)], gather_run_one hg', by simp [GetMem.causes, *], answering_sub _ _ _, ?_⟩
      refine ⟨hi, h.map, by simp only [h.counter], ?_, ?_, h.main, h.waiter, h.woken, ?_, fun q hh => h.held q (hk q hh).2,
        h.heldL, fun q r a b => h.one q r (hk q a).2 (hk r b).2, fun q a => h.oneL q (hk q a).2⟩
      · intro q
        simp only
        rw [h.inv.shared.due_nodup.mem_erase_iff, h.due]
        by_cases hqp : q = p
        · subst hqp; rw [hpp]; simp [PeerAt.due]
        · rw [hat _ q hqp]; simp [hqp]
      · intro q
        by_cases hqp : q = p
        · subst hqp; simp only [hpp]; rw [h.asked, hp]; simp [PeerAt.early]
        · simp only [hat _ q hqp]; exact h.asked q
      · intro q hh
        by_cases hqp : q = p
        · subst hqp; simp only [hpp] at hh; cases hh
        · simp only [hat _ q hqp] at hh; exact h.room q hh
  | own ok =>
    by_cases hm : s.lead = .making
    · have hgm : g.main = .making := by rw [h.main, hm]; rfl
      obtain ⟨g', hg, hi, _⟩ := gatherInv_step ht h.inv (.own ok)
      have hg' := hg
      simp only [Gather.step, if_pos hgm] at hg
      cases ok with
      | true =>
        simp only [if_true, Out.ok.injEq] at hg
        subst hg
        exact ⟨{ s with lead := .waiting, waiter := true }, [.own true], _, _,
          by simp only [GetMem.step]; rw [if_pos hm]; rfl, gather_run_one hg', by simp [GetMem.causes, *], answering_sub _ _ _,
          ⟨hi, h.map, h.counter, h.due, h.asked, rfl, rfl, by simp, h.room, h.held, by simp [LeadAt.holds], h.one,
            fun _ _ => rfl⟩⟩
      | false =>
        simp only [Bool.false_eq_true, if_false, Out.ok.injEq] at hg
        subst hg
        exact ⟨{ s with lead := .failed }, [.own false], _, _,
          by simp only [GetMem.step]; rw [if_pos hm]; rfl, gather_run_one hg', by simp [GetMem.causes, *], answering_sub _ _ _,
          ⟨hi, h.map, h.counter, h.due, h.asked, rfl, h.waiter, by simp, h.room, h.held, by simp [LeadAt.holds], h.one,
            fun _ _ => rfl⟩⟩
    · exact stay (s' := s) (by simp only [GetMem.step]; rw [if_neg hm]) h
  | woken =>
    by_cases hw : s.waiter = true ∧ s.counter = 0
    · obtain ⟨g', hg, hi, _⟩ := gatherInv_step ht h.inv .woken
      have hg' := hg
      simp only [Gather.step, h.waiter, h.counter, if_pos hw, Out.ok.injEq] at hg
      subst hg
      exact ⟨{ s with waiter := false }, [.woken], _, _, by simp only [GetMem.step]; rw [if_pos hw], gather_run_one hg', by simp [GetMem.causes, *], answering_sub _ _ _,
        ⟨hi, h.map, h.counter, h.due, h.asked, h.main, rfl, fun _ => rfl, h.room, h.held, h.heldL, h.one, h.oneL⟩⟩
    · exact stay (s' := s) (by simp only [GetMem.step]; rw [if_neg hw]) h
  | select =>
    by_cases hw : s.lead = .waiting ∧ s.waiter = false
    · refine stay (s' := { s with lead := .locks }) (by simp only [GetMem.step]; rw [if_pos hw])
        ⟨h.inv, h.map, h.counter, h.due, h.asked, by rw [h.main, hw.1]; rfl, h.waiter, fun _ => hw.2, h.room, h.held,
          by simp [LeadAt.holds], h.one, fun _ _ => rfl⟩
    · exact stay (s' := s) (by simp only [GetMem.step]; rw [if_neg hw]) h
  | timeout =>
    by_cases hw : s.lead = .waiting
    · obtain ⟨g', hg, hi, _⟩ := gatherInv_step ht h.inv .timeout
      have hg' := hg
      have hgm : g.main = .waiting := by rw [h.main, hw]; rfl
      simp only [Gather.step, if_pos hgm, Out.ok.injEq] at hg
      subst hg
      exact ⟨{ s with lead := .timedOut }, [.timeout], _, _, by simp only [GetMem.step]; rw [if_pos hw], gather_run_one hg', by simp [GetMem.causes, *], answering_sub _ _ _,
        ⟨hi, h.map, h.counter, h.due, h.asked, rfl, h.waiter, by simp, h.room, h.held, by simp [LeadAt.holds], h.one,
          fun _ _ => rfl⟩⟩
    · exact stay (s' := s) (by simp only [GetMem.step]; rw [if_neg hw]) h
  | lead =>
    cases hl : s.lead with
    | locks =>
      cases hlk : s.locked with
      | true => exact stay (s' := s) (by simp only [GetMem.step, hl, hlk, if_true]) h
      | false =>
        have hno : ∀ q, (s.peer q).holds = false := fun q => by
          cases hh : (s.peer q).holds with
          | false => rfl
          | true => rw [h.held q hh] at hlk; cases hlk
        exact stay (s' := { s with lead := .writes, locked := true })
          (by simp only [GetMem.step, hl, hlk, Bool.false_eq_true, if_false])
          ⟨h.inv, h.map, h.counter, h.due, h.asked, by rw [h.main, hl]; rfl, h.waiter, fun _ => h.woken (.inl hl), h.room,
            fun _ _ => rfl, fun _ => rfl, h.one, fun q hh => (by simp only at hh; rw [hno] at hh; exact absurd hh (by simp))⟩
    | writes =>
      have hw := h.woken (.inr hl)
      have hgm : g.main = .waiting := by rw [h.main, hl]; rfl
      have hgw : g.waiter = false := by rw [h.waiter]; exact hw
      have h0 := h.inv.waited (by simp [hgm]) (by simp [hgm]) hgw
      have hnp : g.shared.proceeded = false := by
        rw [← Bool.not_eq_true, h.inv.late, hgm]; simp
      obtain ⟨g', hg, hi, _⟩ := gatherInv_step ht h.inv .proceed
      have hg' := hg
      simp only [Gather.step, hgm, hgw, and_self, if_true, Gather.shareStep, Collect.step, h0, hnp, Out.ok.injEq] at hg
      subst hg
      have hno : ∀ q, (s.peer q).holds = false := fun q => by
        cases hh : (s.peer q).holds with
        | false => rfl
        | true => have := h.oneL q hh; rw [hl] at this; cases this
      exact ⟨{ s with lead := .unlocks, map := s.map ++ [me] }, [.proceed], _, _, by simp only [GetMem.step, hl],
        gather_run_one hg', by simp [GetMem.causes, *], answering_sub _ _ _,
        ⟨hi, by simp only [h.map], by simp only [← h.counter, h0], h.due, h.asked, rfl, by simp only [hw], by simp,
          fun q hq => (by simp only at hq; have := hno q; rw [hq] at this; exact absurd this (by simp [PeerAt.holds])), h.held,
          fun _ => h.heldL (by rw [hl]; rfl), h.one, fun q hh => (by simp only at hh; rw [hno] at hh; exact absurd hh (by simp))⟩⟩
    | unlocks =>
      have hno : ∀ q, (s.peer q).holds = false := fun q => by
        cases hh : (s.peer q).holds with
        | false => rfl
        | true => have := h.oneL q hh; rw [hl] at this; cases this
      exact stay (s' := { s with lead := .past, locked := false }) (by simp only [GetMem.step, hl])
        ⟨h.inv, h.map, h.counter, h.due, h.asked, by rw [h.main, hl]; rfl, h.waiter, by simp, h.room,
          fun q hh => (by simp only at hh; rw [hno] at hh; exact absurd hh (by simp)), by simp [LeadAt.holds], h.one, fun _ _ => rfl⟩
    | _ => exact stay (s' := s) (by simp only [GetMem.step, hl]) h

/-! ### Second half -/

/-- The goroutine of a participant holds the lock. -/
def SignAt.holds : SignAt → Bool
  | .writesTable _ | .writesEph _ | .unlocks => true
  | _ => false

/-- The answer of the participant has not been entered yet. -/
def SignAt.early : SignAt → Bool
  | .reads | .calling | .locks _ | .writesTable _ => true
  | _ => false

/-- Its `Done` is due. -/
def SignAt.due : SignAt → Bool
  | .writesEph _ | .unlocks | .finishes => true
  | _ => false

/-- Participants for which there is no goroutine yet. -/
def Lead2At.rest : Lead2At → List Nat
  | .spawns l => l
  | _ => []

/-- How the wait of the main goroutine ended. -/
def Lead2At.abs : Lead2At → Option Bool
  | .spawns _ | .waiting => none
  | .timedOut => some false
  | .reads | .past => some true

/-- The ephemeral public key, if a goroutine is about to enter it then already that one. -/
def SignMem.nextEph (m : SignMem) (me : Nat) : Bytes :=
  match m.signer me with
  | .writesEph r => r.ephemeralPublic.bytes
  | _ => m.eph

/-- The memory `m` corresponds to the state `ph`. -/
structure SignSim (total me : Nat) (ps : List Nat) (past : List SignEv) (m : SignMem) (ph : SignPhase) : Prop where
  inv : PhaseInv total me ps past ph
  sigs : ph.sigs = m.sigs
  eph : ph.eph = m.nextEph me
  counter : ph.counter = m.counter
  due : ∀ p, p ∈ ph.due ↔ (m.signer p).due = true
  asked : ∀ p, p ∈ ph.asked ↔ (m.signer p).early = true ∨ p ∈ m.lead.rest
  rest : ∀ p ∈ m.lead.rest, m.signer p = .absent
  restNodup : m.lead.rest.Nodup
  ended : ph.ended = m.lead.abs
  woken : m.lead = .waiting → m.waiter = false → m.counter = 0
  held : ∀ p, (m.signer p).holds = true → m.locked = true
  one : ∀ p q, (m.signer p).holds = true → (m.signer q).holds = true → p = q
  own : ∀ p r, m.signer p = .writesEph r → p = me

theorem signSim_start {t total me : Nat} {ps ord : List Nat} (hnd : ps.Nodup) (hl : ps.length = t) (ho : ord.Perm ps) :
    ∃ m ph, SignMem.start t total ord = .ok m ∧ SignPhase.start t total ps = .ok ph ∧ SignSim total me ps [] m ph := by
  obtain ⟨ph, h1, h2, h3⟩ := phaseInv_start (t : Int) total me ps hnd (by omega)
  refine ⟨⟨List.replicate total [], [], t, false, fun _ => .absent, .spawns ord, false⟩, ph, ?_, h1, ?_⟩
  · unfold SignMem.start; rw [if_neg (by omega)]
  have hp : ph = ⟨List.replicate total [], [], t, ps, [], none⟩ := by
    unfold SignPhase.start at h1
    rw [if_neg (by omega)] at h1
    simp only [Out.ok.injEq] at h1
    exact h1.symm
  subst hp
  exact ⟨h2, rfl, rfl, rfl, fun p => by simp [SignAt.due], fun p => by simp [SignAt.early, Lead2At.rest, ho.mem_iff],
    fun _ _ => rfl, ho.nodup_iff.2 hnd, rfl, by simp, fun p h => absurd h (by simp [SignAt.holds]),
    fun p q h => absurd h (by simp [SignAt.holds]), fun p r h => absurd h (by simp)⟩

/-- The goroutine of a participant goes on without touching what is shared. -/
theorem SignSim.move {total me : Nat} {ps : List Nat} {past : List SignEv} {m : SignMem} {ph : SignPhase}
    (h : SignSim total me ps past m ph) {p : Nat} {a : SignAt}
    (h1 : a.holds = (m.signer p).holds) (h2 : a.early = (m.signer p).early) (h3 : a.due = (m.signer p).due)
    (h4 : ∀ r, a ≠ .writesEph r) (h5 : ∀ r, m.signer p ≠ .writesEph r) (h6 : m.signer p ≠ .absent) :
    SignSim total me ps past (m.at p a) ph := by
  have hq : ∀ q, ((m.at p a).signer q).holds = (m.signer q).holds ∧ ((m.at p a).signer q).early = (m.signer q).early ∧
      ((m.at p a).signer q).due = (m.signer q).due := by
    intro q
    simp only [SignMem.at]
    by_cases hqp : q = p
    · subst hqp; rw [if_pos rfl]; exact ⟨h1, h2, h3⟩
    · rw [if_neg hqp]; exact ⟨rfl, rfl, rfl⟩
  have heph : (m.at p a).nextEph me = m.nextEph me := by
    unfold SignMem.nextEph
    simp only [SignMem.at]
    by_cases hqp : me = p
    · subst hqp
      rw [if_pos rfl]
      cases a with
      | writesEph r => exact absurd rfl (h4 r)
      | _ =>
        cases hm : m.signer me with
        | writesEph r => exact absurd hm (h5 r)
        | _ => rfl
    · rw [if_neg hqp]
  refine ⟨h.inv, h.sigs, by rw [heph]; exact h.eph, h.counter, fun q => by rw [(hq q).2.2]; exact h.due q,
    fun q => by rw [(hq q).2.1]; exact h.asked q, ?_, h.restNodup, h.ended, h.woken,
    fun q hh => h.held q (by rw [← (hq q).1]; exact hh),
    fun q r a b => h.one q r (by rw [← (hq q).1]; exact a) (by rw [← (hq r).1]; exact b), ?_⟩
  · intro q hr
    have hqp : q ≠ p := by rintro rfl; exact h6 (h.rest _ hr)
    simp only [SignMem.at]
    rw [if_neg hqp]
    exact h.rest q hr
  · intro q r hh
    simp only [SignMem.at] at hh
    by_cases hqp : q = p
    · rw [if_pos hqp] at hh; exact absurd hh (h4 r)
    · rw [if_neg hqp] at hh; exact h.own q r hh

theorem phase_run_one {me : Nat} {ph ph' : SignPhase} {e : SignEv} (h : ph.step me e = .ok ph') :
    SignPhase.run me ph [e] = .ok ph' := by
  simp only [SignPhase.run, h]

/-- A step `x` of `SignPhase` for the step `e` stands for what a goroutine has been told. -/
def SignMem.causes (m : SignMem) (e : SignMemEv) : SignEv → Prop
  | .failed p => e = .call p none
  | .answered p r => m.signer p = .writesTable r
  | _ => True

/-- Every step is none or one step of `SignPhase`. -/
theorem signSim_step {total me : Nat} {ps : List Nat} (hps : ∀ p ∈ ps, 1 ≤ p ∧ p ≤ total) {past : List SignEv}
    {m : SignMem} {ph : SignPhase} (h : SignSim total me ps past m ph) (e : SignMemEv) :
    ∃ m' es ph' past', m.step me e = .ok m' ∧ SignPhase.run me ph es = .ok ph' ∧
      (∀ x ∈ es, m.causes e x) ∧ SignSim total me ps past' m' ph' := by
  have stay : ∀ {m' : SignMem}, m.step me e = .ok m' → SignSim total me ps past m' ph →
      ∃ m' es ph' past', m.step me e = .ok m' ∧ SignPhase.run me ph es = .ok ph' ∧
      (∀ x ∈ es, m.causes e x) ∧ SignSim total me ps past' m' ph' :=
    fun h1 h2 => ⟨_, [], ph, past, h1, rfl, by simp, h2⟩
  have hat : ∀ p (a : SignAt) q, q ≠ p → (m.at p a).signer q = m.signer q := fun p a q hq => by
    simp only [SignMem.at]; rw [if_neg hq]
  have hpp : ∀ p (a : SignAt), (m.at p a).signer p = a := fun p a => by simp only [SignMem.at]; rw [if_pos trivial]
  cases e with
  | call p o =>
    by_cases hp : m.signer p = .calling
    · cases o with
      | some r =>
        refine stay (m' := m.at p (.locks r)) (by simp only [SignMem.step]; rw [if_pos hp])
          (h.move ?_ ?_ ?_ (by simp) (by simp [hp]) (by simp [hp])) <;> (rw [hp]; rfl)
      | none =>
        have hin : p ∈ ph.asked := (h.asked p).2 (.inl (by rw [hp]; rfl))
        obtain ⟨ph', hg, hi⟩ := phaseInv_step hps h.inv (.failed p)
        have hg' := hg
        simp only [SignPhase.step, if_pos hin, Out.ok.injEq] at hg
        subst hg
        have hk : ∀ q, ((m.at p .finishes).signer q).holds = true → (m.signer q).holds = true := by
          intro q hh
          have hqp : q ≠ p := by rintro rfl; rw [hpp] at hh; cases hh
          rw [hat _ _ q hqp] at hh; exact hh
        refine ⟨m.at p .finishes, [.failed p], _, past ++ [.failed p],
          by simp only [SignMem.step]; rw [if_pos hp], phase_run_one hg', by simp [SignMem.causes, *], ?_⟩
        refine ⟨hi, h.sigs, ?_, h.counter, ?_, ?_, ?_, h.restNodup, h.ended, h.woken, fun q hh => h.held q (hk q hh),
          fun q r a b => h.one q r (hk q a) (hk r b), ?_⟩
        · rw [h.eph]
          unfold SignMem.nextEph
          by_cases hqp : me = p
          · subst hqp; rw [hpp, hp]; rfl
          · rw [hat _ _ me hqp]; rfl
        · intro q
          by_cases hqp : q = p
          · subst hqp; simp only [hpp]; simp [SignAt.due]
          · simp only [hat _ _ q hqp]; rw [← h.due q]; simp [hqp]
        · intro q
          simp only
          rw [h.inv.asked_nodup.mem_erase_iff, h.asked]
          by_cases hqp : q = p
          · subst hqp
            rw [hpp]
            simp only [ne_eq, not_true_eq_false, false_and, SignAt.early, Bool.false_eq_true, false_or, false_iff]
            intro hr
            have := h.rest _ hr
            rw [hp] at this; cases this
          · rw [hat _ _ q hqp]; simp [hqp, SignMem.at]
        · intro q hr
          have hqp : q ≠ p := by rintro rfl; have := h.rest _ hr; rw [hp] at this; cases this
          rw [hat _ _ q hqp]; exact h.rest q hr
        · intro q r hh
          have hqp : q ≠ p := by rintro rfl; rw [hpp] at hh; cases hh
          rw [hat _ _ q hqp] at hh; exact h.own q r hh
    · refine stay (m' := m) ?_ h
      simp only [SignMem.step]; rw [if_neg hp]
  | signer p =>
    cases hp : m.signer p with
    | absent => exact stay (m' := m) (by simp only [SignMem.step, SignMem.signerStep, hp]) h
    | calling => exact stay (m' := m) (by simp only [SignMem.step, SignMem.signerStep, hp]) h
    | ended => exact stay (m' := m) (by simp only [SignMem.step, SignMem.signerStep, hp]) h
    | reads =>
      refine stay (m' := m.at p .calling) (by simp only [SignMem.step, SignMem.signerStep, hp])
        (h.move ?_ ?_ ?_ (by simp) (by simp [hp]) (by simp [hp])) <;> (rw [hp]; rfl)
    | locks r =>
      cases hl : m.locked with
      | true => exact stay (m' := m) (by simp only [SignMem.step, SignMem.signerStep, hp, hl, if_true]) h
      | false =>
        have hno : ∀ q, (m.signer q).holds = false := fun q => by
          cases hh : (m.signer q).holds with
          | false => rfl
          | true => rw [h.held q hh] at hl; cases hl
        have hk : ∀ q, ((m.at p (.writesTable r)).signer q).holds = true → q = p := by
          intro q hh
          by_contra hqp
          rw [hat _ _ q hqp, hno] at hh; cases hh
        refine stay (m' := { m.at p (.writesTable r) with locked := true })
          (by simp only [SignMem.step, SignMem.signerStep, hp, hl, Bool.false_eq_true, if_false])
          ⟨h.inv, h.sigs, ?_, h.counter, ?_, ?_, ?_, h.restNodup, h.ended, h.woken, fun _ _ => rfl,
            fun q r a b => (hk q a).trans (hk r b).symm, ?_⟩
        · rw [h.eph]
          unfold SignMem.nextEph
          by_cases hqp : me = p
          · subst hqp; simp only [hpp, hp]; rfl
          · simp only [hat _ _ me hqp]; rfl
        · intro q
          by_cases hqp : q = p
          · subst hqp; simp only [hpp]; rw [h.due, hp]; simp [SignAt.due]
          · simp only [hat _ _ q hqp]; exact h.due q
        · intro q
          by_cases hqp : q = p
          · subst hqp; simp only [hpp]; rw [h.asked, hp]; simp [SignAt.early]
          · simp only [hat _ _ q hqp]; exact h.asked q
        · intro q hr
          have hqp : q ≠ p := by rintro rfl; have := h.rest _ hr; rw [hp] at this; cases this
          simp only [hat _ _ q hqp]; exact h.rest q hr
        · intro q r' hh
          have hqp : q ≠ p := by rintro rfl; simp only [hpp] at hh; cases hh
          simp only [hat _ _ q hqp] at hh; exact h.own q r' hh
    | writesTable r =>
      have hin : p ∈ ph.asked := (h.asked p).2 (.inl (by rw [hp]; rfl))
      obtain ⟨ph', hg, hi⟩ := phaseInv_step hps h.inv (.answered p r)
      have hg' := hg
      simp only [SignPhase.step, if_pos hin, h.sigs] at hg
      cases hix : goIndex m.sigs ((p : Int) - 1) with
      | none => rw [hix] at hg; cases hg
      | some x =>
        rw [hix] at hg
        simp only [Out.ok.injEq] at hg
        subst hg
        have hlk := h.held p (by rw [hp]; rfl)
        have hk : ∀ q, ((m.at p (if p = me then .writesEph r else .unlocks)).signer q).holds = true →
            (m.signer q).holds = true := by
          intro q hh
          by_cases hqp : q = p
          · subst hqp; rw [hp]; rfl
          · rw [hat _ _ q hqp] at hh; exact hh
        refine ⟨{ m.at p (if p = me then .writesEph r else .unlocks) with sigs := m.sigs.set (p - 1) r.signature.bytes },
          [.answered p r], _, past ++ [.answered p r], by simp only [SignMem.step, SignMem.signerStep, hp, hix],
          phase_run_one hg', by simp [SignMem.causes, *], ?_⟩
        refine ⟨hi, rfl, ?_, h.counter, ?_, ?_, ?_, h.restNodup, h.ended, h.woken, fun q hh => h.held q (hk q hh),
          fun q r a b => h.one q r (hk q a) (hk r b), ?_⟩
        · unfold SignMem.nextEph
          by_cases hqp : p = me
          · subst hqp; simp only [if_true, hpp]
          · simp only [if_neg hqp, hat _ _ me (Ne.symm hqp)]
            rw [h.eph]; rfl
        · intro q
          by_cases hqp : q = p
          · subst hqp; simp only [hpp]; split <;> simp [SignAt.due]
          · simp only [hat _ _ q hqp]; rw [← h.due q]; simp [hqp]
        · intro q
          simp only
          rw [h.inv.asked_nodup.mem_erase_iff, h.asked]
          by_cases hqp : q = p
          · subst hqp
            rw [hpp]
            have he : (if q = me then SignAt.writesEph r else SignAt.unlocks).early = false := by split <;> rfl
            rw [he]
            simp only [ne_eq, not_true_eq_false, false_and, Bool.false_eq_true, false_or, false_iff]
            intro hr
            have := h.rest _ hr
            rw [hp] at this; cases this
          · rw [hat _ _ q hqp]; simp [hqp, SignMem.at]
        · intro q hr
          have hqp : q ≠ p := by rintro rfl; have := h.rest _ hr; rw [hp] at this; cases this
          simp only [hat _ _ q hqp]; exact h.rest q hr
        · intro q r' hh
          by_cases hqp : q = p
          · subst hqp
            simp only [hpp] at hh
            split at hh
            · assumption
            · cases hh
          · simp only [hat _ _ q hqp] at hh; exact h.own q r' hh
    | writesEph r =>
      have hme := h.own p r hp
      have hk : ∀ q, ((m.at p .unlocks).signer q).holds = true → (m.signer q).holds = true := by
        intro q hh
        by_cases hqp : q = p
        · subst hqp; rw [hp]; rfl
        · rw [hat _ _ q hqp] at hh; exact hh
      refine stay (m' := { m.at p .unlocks with eph := r.ephemeralPublic.bytes })
        (by simp only [SignMem.step, SignMem.signerStep, hp])
        ⟨h.inv, h.sigs, ?_, h.counter, ?_, ?_, ?_, h.restNodup, h.ended, h.woken, fun q hh => h.held q (hk q hh),
          fun q r a b => h.one q r (hk q a) (hk r b), ?_⟩
      · rw [h.eph]
        unfold SignMem.nextEph
        subst hme
        simp only [hpp, hp]
      · intro q
        by_cases hqp : q = p
        · subst hqp; simp only [hpp]; rw [h.due, hp]; simp [SignAt.due]
        · simp only [hat _ _ q hqp]; exact h.due q
      · intro q
        by_cases hqp : q = p
        · subst hqp; simp only [hpp]; rw [h.asked, hp]; simp [SignAt.early, SignMem.at]
        · simp only [hat _ _ q hqp]; exact h.asked q
      · intro q hr
        have hqp : q ≠ p := by rintro rfl; have := h.rest _ hr; rw [hp] at this; cases this
        simp only [hat _ _ q hqp]; exact h.rest q hr
      · intro q r' hh
        have hqp : q ≠ p := by rintro rfl; simp only [hpp] at hh; cases hh
        simp only [hat _ _ q hqp] at hh; exact h.own q r' hh
    | unlocks =>
      have hk : ∀ q, ((m.at p .finishes).signer q).holds = false := by
        intro q
        by_cases hqp : q = p
        · subst hqp; rw [hpp]; rfl
        · rw [hat _ _ q hqp]
          cases hh : (m.signer q).holds with
          | false => rfl
          | true => exact absurd (h.one q p hh (by rw [hp]; rfl)) hqp
      refine stay (m' := { m.at p .finishes with locked := false })
        (by simp only [SignMem.step, SignMem.signerStep, hp])
        ⟨h.inv, h.sigs, ?_, h.counter, ?_, ?_, ?_, h.restNodup, h.ended, h.woken,
          fun q hh => (by simp only at hh; rw [hk] at hh; exact absurd hh (by simp)),
          fun q r a b => (by simp only at a; rw [hk] at a; exact absurd a (by simp)), ?_⟩
      · rw [h.eph]
        unfold SignMem.nextEph
        by_cases hqp : me = p
        · subst hqp; simp only [hpp, hp]; rfl
        · simp only [hat _ _ me hqp]; rfl
      · intro q
        by_cases hqp : q = p
        · subst hqp; simp only [hpp]; rw [h.due, hp]; simp [SignAt.due]
        · simp only [hat _ _ q hqp]; exact h.due q
      · intro q
        by_cases hqp : q = p
        · subst hqp; simp only [hpp]; rw [h.asked, hp]; simp [SignAt.early, SignMem.at]
        · simp only [hat _ _ q hqp]; exact h.asked q
      · intro q hr
        have hqp : q ≠ p := by rintro rfl; have := h.rest _ hr; rw [hp] at this; cases this
        simp only [hat _ _ q hqp]; exact h.rest q hr
      · intro q r' hh
        have hqp : q ≠ p := by rintro rfl; simp only [hpp] at hh; cases hh
        simp only [hat _ _ q hqp] at hh; exact h.own q r' hh
    | finishes =>
      have hin : p ∈ ph.due := (h.due p).2 (by rw [hp]; rfl)
      obtain ⟨ph', hg, hi⟩ := phaseInv_step hps h.inv (.done p)
      have hg' := hg
      simp only [SignPhase.step, if_pos hin] at hg
      by_cases hneg : ph.counter - 1 < 0
      · rw [if_pos hneg] at hg; cases hg
      rw [if_neg hneg] at hg
      simp only [Out.ok.injEq] at hg
      subst hg
      have hk : ∀ q, ((m.at p .ended).signer q).holds = true → (m.signer q).holds = true := by
        intro q hh
        have hqp : q ≠ p := by rintro rfl; rw [hpp] at hh; cases hh
        rw [hat _ _ q hqp] at hh; exact hh
      refine ⟨{ m.at p .ended with counter := m.counter - 1 }, [.done p], _, past ++ [.done p],
        by simp only [SignMem.step, SignMem.signerStep, hp]; rw [if_neg (by rw [← h.counter]; exact hneg)],
        phase_run_one hg', by simp [SignMem.causes, *], ?_⟩
      refine ⟨hi, h.sigs, ?_, by simp only [h.counter], ?_, ?_, ?_, h.restNodup, h.ended, ?_, fun q hh => h.held q (hk q hh),
        fun q r a b => h.one q r (hk q a) (hk r b), ?_⟩
      · show ph.eph = _
        rw [h.eph]
        unfold SignMem.nextEph
        by_cases hqp : me = p
        · subst hqp; simp only [hpp, hp]; rfl
        · simp only [hat _ _ me hqp]; rfl
      · intro q
        simp only
        rw [h.inv.due_nodup.mem_erase_iff, h.due]
        by_cases hqp : q = p
        · subst hqp; rw [hpp]; simp [SignAt.due]
        · rw [hat _ _ q hqp]; simp [hqp]
      · intro q
        by_cases hqp : q = p
        · subst hqp; simp only [hpp]; rw [h.asked, hp]; simp [SignAt.early, SignMem.at]
        · simp only [hat _ _ q hqp]; exact h.asked q
      · intro q hr
        have hqp : q ≠ p := by rintro rfl; have := h.rest _ hr; rw [hp] at this; cases this
        simp only [hat _ _ q hqp]; exact h.rest q hr
      · intro hw hww
        have h0 := h.woken hw hww
        rw [← h.counter] at h0
        omega
      · intro q r' hh
        have hqp : q ≠ p := by rintro rfl; simp only [hpp] at hh; cases hh
        simp only [hat _ _ q hqp] at hh; exact h.own q r' hh
  | woken =>
    by_cases hw : m.waiter = true ∧ m.counter = 0
    · exact stay (m' := { m with waiter := false }) (by simp only [SignMem.step]; rw [if_pos hw])
        ⟨h.inv, h.sigs, h.eph, h.counter, h.due, h.asked, h.rest, h.restNodup, h.ended, fun _ _ => hw.2, h.held, h.one, h.own⟩
    · exact stay (m' := m) (by simp only [SignMem.step]; rw [if_neg hw]) h
  | select =>
    by_cases hw : m.lead = .waiting ∧ m.waiter = false
    · obtain ⟨ph', hg, hi⟩ := phaseInv_step hps h.inv .proceed
      have hg' := hg
      have h0 : ph.counter = 0 ∧ ph.ended = none := ⟨by rw [h.counter]; exact h.woken hw.1 hw.2, by rw [h.ended, hw.1]; rfl⟩
      simp only [SignPhase.step, if_pos h0, Out.ok.injEq] at hg
      subst hg
      exact ⟨{ m with lead := .reads }, [.proceed], _, _, by simp only [SignMem.step]; rw [if_pos hw], phase_run_one hg', by simp [SignMem.causes, *],
        ⟨hi, h.sigs, h.eph, h.counter, h.due, fun p => by have := h.asked p; rw [hw.1] at this; exact this,
          by simp [Lead2At.rest], by simp [Lead2At.rest], rfl, by simp, h.held, h.one, h.own⟩⟩
    · exact stay (m' := m) (by simp only [SignMem.step]; rw [if_neg hw]) h
  | timeout =>
    by_cases hw : m.lead = .waiting
    · obtain ⟨ph', hg, hi⟩ := phaseInv_step hps h.inv .timeout
      have hg' := hg
      have h0 : ph.ended = none := by rw [h.ended, hw]; rfl
      simp only [SignPhase.step, if_pos h0, Out.ok.injEq] at hg
      subst hg
      exact ⟨{ m with lead := .timedOut }, [.timeout], _, _, by simp only [SignMem.step]; rw [if_pos hw], phase_run_one hg', by simp [SignMem.causes, *],
        ⟨hi, h.sigs, h.eph, h.counter, h.due, fun p => by have := h.asked p; rw [hw] at this; exact this,
          by simp [Lead2At.rest], by simp [Lead2At.rest], rfl, by simp, h.held, h.one, h.own⟩⟩
    · exact stay (m' := m) (by simp only [SignMem.step]; rw [if_neg hw]) h
  | lead =>
    cases hl : m.lead with
    | spawns l =>
      cases l with
      | nil =>
        exact stay (m' := { m with lead := .waiting, waiter := true }) (by simp only [SignMem.step, hl])
          ⟨h.inv, h.sigs, h.eph, h.counter, h.due, fun p => by have := h.asked p; rw [hl] at this; exact this,
            by simp [Lead2At.rest], by simp [Lead2At.rest], by rw [h.ended, hl]; rfl, by simp, h.held, h.one, h.own⟩
      | cons p rest =>
        have hnd := h.restNodup
        have hrest := h.rest
        have hasked := h.asked
        rw [hl] at hnd hrest hasked
        simp only [Lead2At.rest, List.nodup_cons] at hnd
        have hab : m.signer p = .absent := hrest p (by simp [Lead2At.rest])
        have hk : ∀ q, ((m.at p .reads).signer q).holds = true → (m.signer q).holds = true := by
          intro q hh
          have hqp : q ≠ p := by rintro rfl; rw [hpp] at hh; cases hh
          rw [hat _ _ q hqp] at hh; exact hh
        refine stay (m' := { m.at p .reads with lead := .spawns rest }) (by simp only [SignMem.step, hl])
          ⟨h.inv, h.sigs, ?_, h.counter, ?_, ?_, ?_, hnd.2, by rw [h.ended, hl]; rfl, by simp,
            fun q hh => h.held q (hk q hh), fun q r a b => h.one q r (hk q a) (hk r b), ?_⟩
        · rw [h.eph]
          unfold SignMem.nextEph
          by_cases hqp : me = p
          · subst hqp; simp only [hpp, hab]; rfl
          · simp only [hat _ _ me hqp]; rfl
        · intro q
          by_cases hqp : q = p
          · subst hqp; simp only [hpp]; rw [h.due, hab]; simp [SignAt.due]
          · simp only [hat _ _ q hqp]; exact h.due q
        · intro q
          rw [hasked q]
          by_cases hqp : q = p
          · subst hqp; simp only [hpp]; simp [SignAt.early, Lead2At.rest]
          · simp only [hat _ _ q hqp]; simp [Lead2At.rest, hqp]
        · intro q hr
          have hqp : q ≠ p := by rintro rfl; exact hnd.1 hr
          simp only [hat _ _ q hqp]
          exact hrest q (List.mem_cons_of_mem _ hr)
        · intro q r' hh
          have hqp : q ≠ p := by rintro rfl; simp only [hpp] at hh; cases hh
          simp only [hat _ _ q hqp] at hh; exact h.own q r' hh
    | reads =>
      exact stay (m' := { m with lead := .past }) (by simp only [SignMem.step, hl])
        ⟨h.inv, h.sigs, h.eph, h.counter, h.due, fun p => by have := h.asked p; rw [hl] at this; exact this,
          by simp [Lead2At.rest], by simp [Lead2At.rest], by rw [h.ended, hl]; rfl, by simp, h.held, h.one, h.own⟩
    | _ => exact stay (m' := m) (by simp only [SignMem.step, hl]) h

/-! ### The round -/

/-- Once the main goroutine has its parts in the map, it stays there, and the map stays as it is. -/
theorem getMem_past {t me : Nat} (ht : 1 ≤ t) {past : List Nat} {s s' : GetMem} {g : Gather} (h : GetSim t me past s g)
    (hme : me ∉ past) (hl : s.lead = .past) {e : GetEv} (hs : s.step t me e = .ok s') : s'.lead = .past ∧ s'.map = s.map := by
  have hlen : s.map.length = t := by
    rw [← h.map]; exact (gatherInv_joined ht h.inv hme (by rw [h.main, hl]; rfl)).2.1
  cases e with
  | call p ok => simp only [GetMem.step] at hs; split at hs <;> (cases hs; exact ⟨hl, rfl⟩)
  | peer p =>
    simp only [GetMem.step, GetMem.peerStep] at hs
    cases hp : s.peer p with
    | writes => have := h.room p hp; omega
    | _ => rw [hp] at hs; simp only at hs; (try split at hs) <;> cases hs <;> exact ⟨hl, rfl⟩
  | own ok => simp only [GetMem.step, hl] at hs; simp at hs; subst hs; exact ⟨hl, rfl⟩
  | woken => simp only [GetMem.step] at hs; split at hs <;> (cases hs; exact ⟨hl, rfl⟩)
  | select => simp only [GetMem.step, hl] at hs; simp at hs; subst hs; exact ⟨hl, rfl⟩
  | timeout => simp only [GetMem.step, hl] at hs; simp at hs; subst hs; exact ⟨hl, rfl⟩
  | lead => simp only [GetMem.step, hl] at hs; cases hs; exact ⟨hl, rfl⟩

/-- What a goroutine is about to enter is what its call returned, so what holds of answered calls holds there. -/
theorem getMem_told {t : Int} {me : Nat} {s s' : GetMem} {e : GetEv} {P : Nat → Prop}
    (h : ∀ p, s.peer p = .locks ∨ s.peer p = .tests ∨ s.peer p = .writes → P p) (hc : ∀ p, e = .call p true → P p)
    (hs : s.step t me e = .ok s') :
    ∀ p, s'.peer p = .locks ∨ s'.peer p = .tests ∨ s'.peer p = .writes → P p := by
  intro q hq
  cases e with
  | call p ok =>
    simp only [GetMem.step] at hs
    split at hs
    · cases hs
      by_cases hqp : q = p
      · subst hqp
        cases ok with
        | true => exact hc q rfl
        | false => simp [GetMem.at] at hq
      · simp only [GetMem.at, if_neg hqp] at hq; exact h q hq
    · cases hs; exact h q hq
  | peer p =>
    simp only [GetMem.step, GetMem.peerStep] at hs
    by_cases hqp : q = p
    · subst hqp
      refine h q ?_
      cases hp : s.peer q with
      | locks => simp
      | tests => simp
      | writes => simp
      | unlocks b => rw [hp] at hs; cases b <;> (cases hs; simp [GetMem.at] at hq)
      | finishes => rw [hp] at hs; simp only at hs; split at hs <;> cases hs; simp [GetMem.at] at hq
      | _ => rw [hp] at hs; simp only at hs; cases hs; rw [hp] at hq; simp at hq
    · refine h q ?_
      have : s'.peer q = s.peer q := by
        (repeat' split at hs) <;> cases hs <;> simp [GetMem.at, hqp]
      rw [this] at hq; exact hq
  | _ =>
    refine h q ?_
    have : s'.peer q = s.peer q := by
      simp only [GetMem.step] at hs
      (repeat' split at hs) <;> cases hs <;> rfl
    rw [this] at hq; exact hq

theorem getMem_heard {t : Int} {me : Nat} {s s' : GetMem} {e : GetEv} {old : List GetEv}
    (h : ∀ p, s.peer p = .locks ∨ s.peer p = .tests ∨ s.peer p = .writes → .call p true ∈ old)
    (hs : s.step t me e = .ok s') :
    ∀ p, s'.peer p = .locks ∨ s'.peer p = .tests ∨ s'.peer p = .writes → .call p true ∈ old ++ [e] :=
  getMem_told (P := fun p => .call p true ∈ old ++ [e]) (fun p hp => List.mem_append_left _ (h p hp))
    (fun p hp => by rw [hp]; simp) hs

/-- The same for the second half. -/
theorem signMem_told {me : Nat} {m m' : SignMem} {e : SignMemEv} {P : Nat → SignRes → Prop}
    (h : ∀ p r, m.signer p = .locks r ∨ m.signer p = .writesTable r → P p r)
    (hc : ∀ p r, e = .call p (some r) → P p r)
    (hs : m.step me e = .ok m') :
    ∀ p r, m'.signer p = .locks r ∨ m'.signer p = .writesTable r → P p r := by
  intro q r hq
  cases e with
  | call p o =>
    simp only [SignMem.step] at hs
    split at hs
    · by_cases hqp : q = p
      · subst hqp
        cases o with
        | some r' =>
          cases hs
          simp only [SignMem.at, if_true, SignAt.locks.injEq] at hq
          rcases hq with rfl | hq
          · exact hc q _ rfl
          · cases hq
        | none => cases hs; simp [SignMem.at] at hq
      · refine h q r ?_
        have : m'.signer q = m.signer q := by
          (repeat' split at hs) <;> cases hs <;> simp [SignMem.at, hqp]
        rw [this] at hq; exact hq
    · cases hs; exact h q r hq
  | signer p =>
    simp only [SignMem.step, SignMem.signerStep] at hs
    by_cases hqp : q = p
    · subst hqp
      cases hp : m.signer q with
      | locks r' =>
        rw [hp] at hs
        simp only at hs
        split at hs
        · cases hs; exact h q r hq
        · cases hs
          simp only [SignMem.at, if_true, SignAt.writesTable.injEq] at hq
          rcases hq with hq | rfl
          · cases hq
          · exact h q r' (.inl hp)
      | writesTable r' =>
        rw [hp] at hs
        simp only at hs
        split at hs
        · cases hs
        · cases hs
          simp only [SignMem.at, if_true] at hq
          split at hq <;> simp at hq
      | finishes => rw [hp] at hs; simp only at hs; split at hs <;> cases hs; simp [SignMem.at] at hq
      | absent => rw [hp] at hs; cases hs; exact h q r hq
      | calling => rw [hp] at hs; cases hs; exact h q r hq
      | ended => rw [hp] at hs; cases hs; exact h q r hq
      | reads => rw [hp] at hs; cases hs; simp [SignMem.at] at hq
      | writesEph r' => rw [hp] at hs; cases hs; simp [SignMem.at] at hq
      | unlocks => rw [hp] at hs; cases hs; simp [SignMem.at] at hq
    · refine h q r ?_
      have : m'.signer q = m.signer q := by
        (repeat' split at hs) <;> cases hs <;> simp [SignMem.at, hqp]
      rw [this] at hq; exact hq
  | lead =>
    simp only [SignMem.step] at hs
    split at hs
    · cases hs; exact h q r hq
    · rename_i p rest hl
      cases hs
      by_cases hqp : q = p
      · subst hqp; simp [SignMem.at] at hq
      · refine h q r ?_
        simpa [SignMem.at, hqp] using hq
    · cases hs; exact h q r hq
    · cases hs; exact h q r hq
  | _ =>
    refine h q r ?_
    have : m'.signer q = m.signer q := by
      simp only [SignMem.step] at hs
      (repeat' split at hs) <;> cases hs <;> rfl
    rw [this] at hq; exact hq

theorem signMem_heard {me : Nat} {m m' : SignMem} {e : SignMemEv} {old : List SignMemEv}
    (h : ∀ p r, m.signer p = .locks r ∨ m.signer p = .writesTable r → .call p (some r) ∈ old)
    (hs : m.step me e = .ok m') :
    ∀ p r, m'.signer p = .locks r ∨ m'.signer p = .writesTable r → .call p (some r) ∈ old ++ [e] :=
  signMem_told (P := fun p r => .call p (some r) ∈ old ++ [e]) (fun p r hp => List.mem_append_left _ (h p r hp))
    (fun p r hp => by rw [hp]; simp) hs

theorem gather_run_append {t : Int} {me : Nat} {g g1 g2 : Gather} {es1 es2 : List GatherEv}
    (h1 : Gather.run t me g es1 = .ok g1) (h2 : Gather.run t me g1 es2 = .ok g2) : Gather.run t me g (es1 ++ es2) = .ok g2 := by
  induction es1 generalizing g with
  | nil => cases h1; exact h2
  | cons e es ih =>
    simp only [Gather.run, List.cons_append] at h1 ⊢
    split at h1
    · exact ih h1
    · cases h1
    · cases h1

theorem phaseRun_append {me : Nat} {ph ph1 ph2 : SignPhase} {es1 es2 : List SignEv}
    (h1 : SignPhase.run me ph es1 = .ok ph1) (h2 : SignPhase.run me ph1 es2 = .ok ph2) :
    SignPhase.run me ph (es1 ++ es2) = .ok ph2 := by
  induction es1 generalizing ph with
  | nil => cases h1; exact h2
  | cons e es ih =>
    simp only [SignPhase.run, List.cons_append] at h1 ⊢
    split at h1
    · exact ih h1
    · cases h1
    · cases h1

theorem gather_asked_run {t : Int} {me : Nat} {g g' : Gather} {es : List GatherEv} (h : Gather.run t me g es = .ok g') :
    ∀ p ∈ g'.asked, p ∈ g.asked := by
  induction es generalizing g with
  | nil => cases h; exact fun _ hp => hp
  | cons e es ih =>
    simp only [Gather.run] at h
    split at h
    · rename_i g1 h1; exact fun p hp => gather_asked h1 p (ih h p hp)
    · cases h
    · cases h

/-- The steps of the first half among those of a round. -/
def firsts (es : List RoundMemEv) : List GetEv := es.filterMap fun | .first e => some e | _ => none

/-- Those of the second. -/
def seconds (es : List RoundMemEv) : List SignMemEv := es.filterMap fun | .second e => some e | _ => none

/-- The state `s` of a round after the steps `old`; the state `g` of the first half after `es1`. -/
structure MemInv (t total me : Nat) (peers : List Nat) (old : List RoundMemEv) (past : List Nat) (s : RoundMem) (g : Gather) :
    Prop where
  first : GetSim t me past s.first g
  asked : ∀ p ∈ g.asked, p ∈ peers
  past : ∀ p ∈ past, p ∈ peers
  heard : ∀ p, s.first.peer p = .locks ∨ s.first.peer p = .tests ∨ s.first.peer p = .writes → .call p true ∈ firsts old
  behind : s.second.isSome = true → s.first.lead = .past
  second : ∀ m, s.second = some m → ∃ past2 es2 ph0 ph, SignPhase.start t total s.first.map = .ok ph0 ∧
    SignPhase.run me ph0 es2 = .ok ph ∧ SignSim total me s.first.map past2 m ph ∧
    (∀ p r, .answered p r ∈ es2 → .call p (some r) ∈ seconds old) ∧ (∀ p, .failed p ∈ es2 → .call p none ∈ seconds old)
  told : ∀ m, s.second = some m → ∀ p r, m.signer p = .locks r ∨ m.signer p = .writesTable r → .call p (some r) ∈ seconds old

theorem memInv_step {t total me : Nat} (ht : 1 ≤ t) {peers : List Nat} (hme : me ∉ peers)
    (hids : ∀ p, p = me ∨ p ∈ peers → 1 ≤ p ∧ p ≤ total) {old : List RoundMemEv} {past : List Nat} {s : RoundMem} {g : Gather}
    (h : MemInv t total me peers old past s g) (e : RoundMemEv) :
    ∃ s' es g' past', s.step t total me e = .ok s' ∧ Gather.run t me g es = .ok g' ∧
      MemInv t total me peers (old ++ [e]) past' s' g' ∧ (∀ p, .answered p ∈ es → .call p true ∈ firsts (old ++ [e])) ∧
      (∀ p, .failed p ∈ es → .call p false ∈ firsts (old ++ [e])) ∧ (∀ b, .own b ∈ es → .own b ∈ firsts (old ++ [e])) := by
  have hmp : me ∉ past := fun hc => hme (h.past _ hc)
  have hf : ∀ x : RoundMemEv, firsts (old ++ [x]) = firsts old ++ firsts [x] := fun x => by simp [firsts]
  have hs2 : ∀ x : RoundMemEv, seconds (old ++ [x]) = seconds old ++ seconds [x] := fun x => by simp [seconds]
  cases e with
  | first e =>
    obtain ⟨f', es, g', past', h1, h2, h3, h4, h5⟩ := getSim_step ht h.first e
    have e1 : firsts (old ++ [.first e]) = firsts old ++ [e] := by rw [hf]; rfl
    have e2 : seconds (old ++ [.first e]) = seconds old := by rw [hs2]; simp [seconds]
    refine ⟨{ s with first := f' }, es, g', past', by simp only [RoundMem.step, h1], h2, ?_, ?_, ?_, ?_⟩
    · refine ⟨h5, fun p hp => h.asked p (gather_asked_run h2 p hp), fun p hp => ?_, ?_, ?_, ?_, ?_⟩
      · rcases h4 p hp with hp | hp
        · exact h.past p hp
        · exact h.asked p hp
      · rw [e1]; exact getMem_heard h.heard h1
      · intro hsome
        exact (getMem_past ht h.first hmp (h.behind hsome) h1).1
      · intro m hm
        have hb := getMem_past ht h.first hmp (h.behind (by rw [hm]; rfl)) h1
        simp only [hb.2, e2]
        exact h.second m hm
      · rw [e2]; exact h.told
    · intro p hp
      rw [e1]
      exact List.mem_append_left _ (h.heard p (.inr (h3 _ hp)))
    · intro p hp
      have : e = .call p false := h3 _ hp
      rw [e1, this]; simp
    · intro b hb
      have : e = .own b := h3 _ hb
      rw [e1, this]; simp
  | begin ord =>
    have e1 : firsts (old ++ [.begin ord]) = firsts old := by rw [hf]; simp [firsts]
    have e2 : seconds (old ++ [.begin ord]) = seconds old := by rw [hs2]; simp [seconds]
    by_cases hb : s.first.lead = .past ∧ s.second.isNone = true ∧ ord.Perm s.first.map
    · obtain ⟨j1, j2, _, _⟩ := gatherInv_joined ht h.first.inv hmp (by rw [h.first.main, hb.1]; rfl)
      rw [h.first.map] at j1 j2
      obtain ⟨m, ph, hm, hph, hsim⟩ := signSim_start (total := total) (me := me) j1 j2 hb.2.2
      refine ⟨{ s with second := some m }, [], g, past, ?_, rfl, ?_, by simp, by simp, by simp⟩
      · simp only [RoundMem.step]; rw [if_pos hb, hm]
      · refine ⟨h.first, h.asked, h.past, by rw [e1]; exact h.heard, fun _ => hb.1, ?_, ?_⟩
        · intro m' hm'
          cases hm'
          exact ⟨[], [], ph, ph, hph, rfl, hsim, by simp, by simp⟩
        · intro m' hm' p r hp
          cases hm'
          have : m.signer p = .absent := by
            unfold SignMem.start at hm
            split at hm <;> cases hm
            rfl
          rw [this] at hp; simp at hp
    · refine ⟨s, [], g, past, ?_, rfl, ⟨h.first, h.asked, h.past, by rw [e1]; exact h.heard, h.behind,
        by rw [e2]; exact h.second, by rw [e2]; exact h.told⟩, by simp, by simp, by simp⟩
      simp only [RoundMem.step]; rw [if_neg hb]
  | second e =>
    have e1 : firsts (old ++ [.second e]) = firsts old := by rw [hf]; simp [firsts]
    have e2 : seconds (old ++ [.second e]) = seconds old ++ [e] := by rw [hs2]; rfl
    cases hsec : s.second with
    | none =>
      refine ⟨s, [], g, past, by simp only [RoundMem.step, hsec], rfl, ⟨h.first, h.asked, h.past, by rw [e1]; exact h.heard,
        h.behind, ?_, ?_⟩, by simp, by simp, by simp⟩
      · intro m hm; rw [hsec] at hm; cases hm
      · intro m hm; rw [hsec] at hm; cases hm
    | some m =>
      obtain ⟨past2, es2, ph0, ph, b1, b2, b3, b4, b5⟩ := h.second m hsec
      have hlead := h.behind (by rw [hsec]; rfl)
      obtain ⟨_, _, _, j4⟩ := gatherInv_joined ht h.first.inv hmp (by rw [h.first.main, hlead]; rfl)
      rw [h.first.map] at j4
      have hps : ∀ p ∈ s.first.map, 1 ≤ p ∧ p ≤ total := fun p hp =>
        hids p ((j4 p hp).imp_right (h.past p))
      obtain ⟨m', es, ph', past2', c1, c2, c3, c4⟩ := signSim_step hps b3 e
      refine ⟨{ s with second := some m' }, [], g, past, by simp only [RoundMem.step, hsec, c1], rfl, ?_, by simp, by simp,
        by simp⟩
      refine ⟨h.first, h.asked, h.past, by rw [e1]; exact h.heard, fun _ => hlead, ?_, ?_⟩
      · intro m1 hm1
        cases hm1
        refine ⟨past2', es2 ++ es, ph0, ph', b1, phaseRun_append b2 c2, c4, ?_, ?_⟩
        · intro p r hp
          rw [e2]
          refine List.mem_append_left _ ?_
          rcases List.mem_append.1 hp with hp | hp
          · exact b4 p r hp
          · exact h.told m hsec p r (.inr (c3 _ hp))
        · intro p hp
          rw [e2]
          rcases List.mem_append.1 hp with hp | hp
          · exact List.mem_append_left _ (b5 p hp)
          · have : e = .call p none := c3 _ hp
            rw [this]; simp
      · intro m1 hm1
        cases hm1
        rw [e2]; exact signMem_heard (h.told m hsec) c1

theorem memInv_run {t total me : Nat} (ht : 1 ≤ t) {peers : List Nat} (hme : me ∉ peers)
    (hids : ∀ p, p = me ∨ p ∈ peers → 1 ≤ p ∧ p ≤ total) {old : List RoundMemEv} {past : List Nat} {s : RoundMem} {g : Gather}
    (h : MemInv t total me peers old past s g) (es : List RoundMemEv) :
    ∃ s' es1 g' past', s.run t total me es = .ok s' ∧ Gather.run t me g es1 = .ok g' ∧
      MemInv t total me peers (old ++ es) past' s' g' ∧ (∀ p, .answered p ∈ es1 → .call p true ∈ firsts (old ++ es)) ∧
      (∀ p, .failed p ∈ es1 → .call p false ∈ firsts (old ++ es)) ∧ (∀ b, .own b ∈ es1 → .own b ∈ firsts (old ++ es)) := by
  induction es generalizing old past s g with
  | nil => exact ⟨s, [], g, past, rfl, rfl, by rw [List.append_nil]; exact h, by simp, by simp, by simp⟩
  | cons e es ih =>
    obtain ⟨s1, es1, g1, past1, a1, a2, a3, a4, a5, a6⟩ := memInv_step ht hme hids h e
    obtain ⟨s2, es2, g2, past2, b1, b2, b3, b4, b5, b6⟩ := ih a3
    have hc : old ++ [e] ++ es = old ++ e :: es := by simp
    have hsub : ∀ x ∈ firsts (old ++ [e]), x ∈ firsts (old ++ e :: es) := by
      intro x hx
      rw [← hc]
      unfold firsts
      rw [List.filterMap_append]
      exact List.mem_append_left _ hx
    rw [hc] at b3 b4 b5 b6
    refine ⟨s2, es1 ++ es2, g2, past2, by simp only [RoundMem.run, a1]; exact b1, gather_run_append a2 b2, b3, ?_, ?_, ?_⟩
    · exact fun p hp => (List.mem_append.1 hp).elim (fun hp => hsub _ (a4 p hp)) (b4 p)
    · exact fun p hp => (List.mem_append.1 hp).elim (fun hp => hsub _ (a5 p hp)) (b5 p)
    · exact fun p hp => (List.mem_append.1 hp).elim (fun hp => hsub _ (a6 p hp)) (b6 p)

end Horcrux
