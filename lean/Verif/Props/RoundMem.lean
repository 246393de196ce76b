import Verif.Lemmas.RoundMem
/-
C119: the memory that the goroutines of a signing round share.
-/
namespace Horcrux
open Spec

theorem memInv_start {t total me : Nat} (ht : 1 ≤ t) {peers : List Nat} (hnd : peers.Nodup) :
    ∃ s g, RoundMem.start t peers = .ok s ∧ Gather.start t peers = .ok g ∧ MemInv t total me peers [] [] s g := by
  obtain ⟨f, g, h1, h2, h3⟩ := getSim_start (me := me) ht hnd
  refine ⟨⟨f, none⟩, g, by simp only [RoundMem.start, h1], h2, h3, ?_, by simp, ?_, by simp, by simp, by simp⟩
  · intro p hp
    rw [h3.asked] at hp
    unfold GetMem.start at h1
    split at h1 <;> cases h1
    simp only at hp
    by_contra hc
    rw [if_neg hc] at hp; cases hp
  · intro p hp
    unfold GetMem.start at h1
    split at h1 <;> cases h1
    simp only at hp
    split at hp <;> simp at hp

/-- **C119.** Whatever the schedule of the goroutines of a signing round, lock by lock and access by access, nothing panics
(no wait group counter below zero, no index out of range), and the round is one of those in which every critical section is
one step: there is a schedule of the goroutines of the first half as in `Gather`, with the same answers, that has the same
map of cosigners, the same wait group counter and leaves the main goroutine in the same place, and, once the second half has
begun, a schedule as in `SignPhase`, with the same answers, after which the wait has ended the same way and, if the main
goroutine goes on, it reads the same table of signatures and the same ephemeral public key. -/
theorem C119_atomic (t total me : Nat) (ht : 1 ≤ t) (peers : List Nat) (hnd : peers.Nodup) (hme : me ∉ peers)
    (hids : ∀ p, p = me ∨ p ∈ peers → 1 ≤ p ∧ p ≤ total) (es : List RoundMemEv) :
    ∃ s0 s g0 g es1, RoundMem.start t peers = .ok s0 ∧ s0.run t total me es = .ok s ∧
      Gather.start t peers = .ok g0 ∧ Gather.run t me g0 es1 = .ok g ∧
      (∀ p, .answered p ∈ es1 → .first (.call p true) ∈ es) ∧ (∀ p, .failed p ∈ es1 → .first (.call p false) ∈ es) ∧
      (∀ b, .own b ∈ es1 → .first (.own b) ∈ es) ∧
      g.shared.joined = s.first.map ∧ g.shared.counter = s.first.counter ∧ g.waiter = s.first.waiter ∧
      (g.main = .failed ↔ s.first.lead = .failed) ∧ (g.main = .timedOut ↔ s.first.lead = .timedOut) ∧
      (g.main = .proceeded ↔ s.first.lead = .unlocks ∨ s.first.lead = .past) ∧
      ∀ m, s.second = some m → s.first.lead = .past ∧ ∃ ph0 ph es2,
        SignPhase.start t total s.first.map = .ok ph0 ∧ SignPhase.run me ph0 es2 = .ok ph ∧
        (∀ p r, .answered p r ∈ es2 → .second (.call p (some r)) ∈ es) ∧
        (∀ p, .failed p ∈ es2 → .second (.call p none) ∈ es) ∧ ph.counter = m.counter ∧
        (ph.ended = some false ↔ m.lead = .timedOut) ∧ (ph.ended = some true ↔ m.lead = .reads ∨ m.lead = .past) ∧
        (ph.ended = some true → ph.sigs = m.sigs ∧ ph.eph = m.eph) := by
  have hf : ∀ x, x ∈ firsts es → .first x ∈ es := by
    intro x hx
    simp only [firsts, List.mem_filterMap] at hx
    obtain ⟨y, hy, hxy⟩ := hx
    cases y <;> simp at hxy
    subst hxy; exact hy
  have hs : ∀ x, x ∈ seconds es → .second x ∈ es := by
    intro x hx
    simp only [seconds, List.mem_filterMap] at hx
    obtain ⟨y, hy, hxy⟩ := hx
    cases y <;> simp at hxy
    subst hxy; exact hy
  obtain ⟨s0, g0, h1, h2, h3⟩ := memInv_start (total := total) (me := me) ht hnd
  obtain ⟨s, es1, g, past, h4, h5, h6, h7, h8, h9⟩ := memInv_run ht hme hids h3 es
  rw [List.nil_append] at h6 h7 h8 h9
  refine ⟨s0, s, g0, g, es1, h1, h4, h2, h5, fun p hp => hf _ (h7 p hp), fun p hp => hf _ (h8 p hp), fun b hb => hf _ (h9 b hb),
    h6.first.map, h6.first.counter, h6.first.waiter, ?_, ?_, ?_, ?_⟩
  · rw [h6.first.main]; cases s.first.lead <;> simp [LeadAt.abs]
  · rw [h6.first.main]; cases s.first.lead <;> simp [LeadAt.abs]
  · rw [h6.first.main]; cases s.first.lead <;> simp [LeadAt.abs]
  intro m hm
  obtain ⟨past2, es2, ph0, ph, b1, b2, b3, b4, b5⟩ := h6.second m hm
  refine ⟨h6.behind (by rw [hm]; rfl), ph0, ph, es2, b1, b2, fun p r hp => hs _ (b4 p r hp), fun p hp => hs _ (b5 p hp),
    b3.counter, ?_, ?_, ?_⟩
  · rw [b3.ended]; cases m.lead <;> simp [Lead2At.abs]
  · rw [b3.ended]; cases m.lead <;> simp [Lead2At.abs]
  · intro hen
    refine ⟨b3.sigs, ?_⟩
    rw [b3.eph]
    unfold SignMem.nextEph
    split
    · rename_i r hr
      have hd := (b3.due me).2 (by rw [hr]; rfl)
      rw [(b3.inv.ended hen).2] at hd
      cases hd
    · rfl

/-- **C119.** And no two goroutines ever race: at no time are two of them about to access the same memory – the map of
cosigners, an entry of the table of signatures, the ephemeral public key – one of them writing. -/
theorem C119_race (t total me : Nat) (ht : 1 ≤ t) (peers : List Nat) (hnd : peers.Nodup) (hme : me ∉ peers)
    (hids : ∀ p, p = me ∨ p ∈ peers → 1 ≤ p ∧ p ≤ total) (es : List RoundMemEv) (s0 s : RoundMem)
    (h0 : RoundMem.start t peers = .ok s0) (hr : s0.run t total me es = .ok s) (a b : RoundThread) (l : RoundLoc) (w : Bool)
    (ha : s.accesses a l true) (hb : s.accesses b l w) : a = b := by
  obtain ⟨s0', g0, h1, h2, h3⟩ := memInv_start (total := total) (me := me) ht hnd
  rw [h0] at h1
  cases h1
  obtain ⟨s', es1, g, past, h4, h5, h6, -⟩ := memInv_run ht hme hids h3 es
  rw [hr] at h4
  cases h4
  have hmp : me ∉ past := fun hc => hme (h6.past _ hc)
  -- once the second half has begun nobody writes the map any more
  have hquiet : s.second.isSome = true → (∀ p, s.first.peer p ≠ .writes) ∧ s.first.lead ≠ .writes := by
    intro hsome
    have hl := h6.behind hsome
    have hj := (gatherInv_joined ht h6.first.inv hmp (by rw [h6.first.main, hl]; rfl)).2.1
    rw [h6.first.map] at hj
    exact ⟨fun p hp => by have := h6.first.room p hp; omega, by rw [hl]; simp⟩
  have hreads : ∀ m, s.second = some m → m.lead = .reads → ∀ p, (m.signer p).early = false ∧ (m.signer p).due = false := by
    intro m hm hl p
    obtain ⟨past2, es2, ph0, ph, b1, b2, b3, b4, b5⟩ := h6.second m hm
    have hen : ph.ended = some true := by rw [b3.ended, hl]; rfl
    have haf := b3.inv.ended hen
    constructor
    · cases hc : (m.signer p).early with
      | false => rfl
      | true => have := (b3.asked p).2 (.inl hc); rw [haf.1] at this; cases this
    · cases hc : (m.signer p).due with
      | false => rfl
      | true => have := (b3.due p).2 hc; rw [haf.2] at this; cases this
  have hown : ∀ m, s.second = some m → ∀ p r, m.signer p = .writesEph r → p = me := by
    intro m hm
    obtain ⟨past2, es2, ph0, ph, b1, b2, b3, -⟩ := h6.second m hm
    exact b3.own
  cases l with
  | map =>
    have hwr : (∃ p, a = .peer p ∧ s.first.peer p = .writes) ∨ (a = .lead ∧ s.first.lead = .writes) := by
      cases a with
      | lead => exact .inr ⟨rfl, ha⟩
      | peer p => exact .inl ⟨p, rfl, ha⟩
      | signer p => exact ha.elim
    have hnone : s.second = none := by
      cases hc : s.second with
      | none => rfl
      | some m =>
        have hq := hquiet (by rw [hc]; rfl)
        rcases hwr with ⟨p, _, hp⟩ | ⟨_, hp⟩
        · exact absurd hp (hq.1 p)
        · exact absurd hp hq.2
    have hrd : (∃ p, b = .peer p ∧ (s.first.peer p).holds = true) ∨ (b = .lead ∧ s.first.lead = .writes) := by
      cases b with
      | lead =>
        cases w with
        | true => exact .inr ⟨rfl, hb⟩
        | false => obtain ⟨m, _, hm, _⟩ := hb; rw [hnone] at hm; cases hm
      | peer p =>
        refine .inl ⟨p, rfl, ?_⟩
        cases w with
        | true => have hb' : s.first.peer p = .writes := hb; rw [hb']; rfl
        | false => have hb' : s.first.peer p = .tests := hb; rw [hb']; rfl
      | signer p =>
        cases w with
        | true => exact hb.elim
        | false => obtain ⟨m, hm, _⟩ := hb; rw [hnone] at hm; cases hm
    rcases hwr with ⟨p, rfl, hp⟩ | ⟨rfl, hp⟩ <;> rcases hrd with ⟨q, rfl, hq⟩ | ⟨rfl, hq⟩
    · rw [h6.first.one p q (by rw [hp]; rfl) hq]
    · have := h6.first.oneL p (by rw [hp]; rfl); rw [hq] at this; cases this
    · have := h6.first.oneL q hq; rw [hp] at this; cases this
    · rfl
  | entry q =>
    cases a with
    | lead => exact ha.elim
    | peer p => exact ha.elim
    | signer p =>
      obtain ⟨rfl, m, r, hm, hp⟩ := ha
      cases b with
      | lead =>
        cases w with
        | true => exact hb.elim
        | false =>
          obtain ⟨m', hm', hl⟩ := hb
          rw [hm] at hm'; cases hm'
          have := (hreads m hm hl p).1
          rw [hp] at this; cases this
      | peer p' => cases w <;> exact hb.elim
      | signer p' =>
        cases w with
        | true => obtain ⟨rfl, _⟩ := hb; rfl
        | false => exact hb.elim
  | eph =>
    cases a with
    | lead => exact ha.elim
    | peer p => exact ha.elim
    | signer p =>
      obtain ⟨m, r, hm, hp⟩ := ha
      have hpm := hown m hm p r hp
      cases b with
      | lead =>
        cases w with
        | true => exact hb.elim
        | false =>
          obtain ⟨m', hm', hl⟩ := hb
          rw [hm] at hm'; cases hm'
          have := (hreads m hm hl p).2
          rw [hp] at this; cases this
      | peer p' => cases w <;> exact hb.elim
      | signer p' =>
        cases w with
        | true =>
          obtain ⟨m', r', hm', hp'⟩ := hb
          rw [hpm, hown m' hm' p' r' hp']
        | false => exact hb.elim

/-- Three cosigners, two needed, both peers answer; the second one takes the lock first and the third one waits for it,
finds the map full and ends. Then the first and the second sign, and the first one, whose cosigner's answer comes later, waits
for the lock. -/
def raceEvs : List RoundMemEv :=
  [.first (.call 3 true), .first (.call 2 true), .first (.peer 2), .first (.peer 3), .first (.own true), .first (.peer 2),
   .first (.peer 3), .first (.peer 2), .first (.peer 2), .first (.peer 2), .first (.peer 3), .first .woken, .first .select,
   .first .lead, .first (.peer 3), .first (.peer 3), .first .lead, .first .lead, .first .lead, .begin [1, 2], .second .lead,
   .second (.signer 1), .second .lead, .second .lead, .second (.signer 2),
   .second (.call 2 (some ⟨some [7], some [9], none⟩)), .second (.call 1 (some ⟨some [5], some [4], none⟩)),
   .second (.signer 2), .second (.signer 1), .second (.signer 2), .second (.signer 2), .second (.signer 1),
   .second (.signer 1), .second (.signer 1), .second (.signer 2), .second (.signer 1), .second (.signer 1), .second .woken,
   .second .select]

/-- The map, the table and the key that the main goroutine reads, and where it is. -/
def raceSeen (es : List RoundMemEv) : Out (List Nat × Option (List Bytes × Bytes × Lead2At)) :=
  match RoundMem.start 2 [2, 3] with
  | .ok s0 =>
    match s0.run 2 3 1 es with
    | .ok s => .ok (s.first.map, s.second.map fun m => (m.sigs, m.eph, m.lead))
    | .err x => .err x
    | .panic => .panic
  | .err x => .err x
  | .panic => .panic

-- the main goroutine reads the table with both signatures and its own cosigner's ephemeral key
example : raceSeen raceEvs = .ok ([2, 1], some ([[4], [9], []], [5], .reads)) := by decide +kernel

-- on the way, the second cosigner's goroutine is about to write the map while the third one's wants to read it and waits
example : ∃ s0 s, RoundMem.start 2 [2, 3] = .ok s0 ∧ s0.run 2 3 1 (raceEvs.take 7) = .ok s ∧
    s.accesses (.peer 2) .map true ∧ s.first.peer 3 = .locks ∧ ¬ s.accesses (.peer 3) .map false := by
  refine ⟨⟨_, _⟩, _, rfl, rfl, ?_, ?_, ?_⟩
  · rfl
  · rfl
  · exact fun h => PeerAt.noConfusion h

-- the hypotheses of both theorems hold of it
example : 1 ≤ 2 ∧ [2, 3].Nodup ∧ (1 : Nat) ∉ [2, 3] ∧ ∀ p : Nat, p = 1 ∨ p ∈ [2, 3] → 1 ≤ p ∧ p ≤ 3 :=
  ⟨by decide, by decide, by decide, fun p hp => by simp at hp; omega⟩

end Horcrux
