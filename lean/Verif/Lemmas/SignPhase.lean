import Verif.Spec.SignPhase
import Verif.Lemmas.Collect
/-
Invariant of the second half of a round.
-/
namespace Horcrux
open Spec

theorem outcomeOf_append (p : Nat) (a b : List SignEv) :
    outcomeOf p (a ++ b) = (outcomeOf p a).or (outcomeOf p b) := by
  induction a with
  | nil => simp [outcomeOf]
  | cons e a ih =>
    cases e <;> simp only [List.cons_append, outcomeOf] <;> (repeat' split) <;> simp_all

/-- What holds after the events `past`. -/
structure PhaseInv (total me : Nat) (ps : List Nat) (past : List SignEv) (s : SignPhase) : Prop where
  asked_nodup : s.asked.Nodup
  asked : ∀ p, p ∈ s.asked ↔ p ∈ ps ∧ outcomeOf p past = none
  due_nodup : s.due.Nodup
  due : ∀ p ∈ s.due, p ∈ ps ∧ outcomeOf p past ≠ none
  counter : s.counter = s.asked.length + s.due.length
  sigs : s.sigs = (List.range total).map fun i => if i + 1 ∈ ps then sigIn (outcomeOf (i + 1) past) else []
  eph : s.eph = if me ∈ ps then ephIn (outcomeOf me past) else []
  ended : s.ended = some true → s.asked = [] ∧ s.due = []

theorem phaseInv_start (t : Int) (total me : Nat) (ps : List Nat) (hnd : ps.Nodup) (hl : (ps.length : Int) = t) :
    ∃ s, SignPhase.start t total ps = .ok s ∧ PhaseInv total me ps [] s ∧ s.ended = none := by
  refine ⟨⟨List.replicate total [], [], t, ps, [], none⟩, ?_, ⟨hnd, by simp [outcomeOf], by simp, by simp, by simp [hl], ?_, ?_, by simp⟩, rfl⟩
  · unfold SignPhase.start; rw [if_neg (by omega)]
  · simp only [outcomeOf, sigIn, ite_self, List.map_const', List.length_range]
  · simp [outcomeOf, ephIn]

theorem outcome_snoc_ne {p q : Nat} {past : List SignEv} {e : SignEv}
    (he : (∃ r, e = .answered q r) ∨ e = .failed q) (h : p ≠ q) : outcomeOf p (past ++ [e]) = outcomeOf p past := by
  rw [outcomeOf_append]
  rcases he with ⟨r, rfl⟩ | rfl <;> simp [outcomeOf, Ne.symm h]

theorem outcome_snoc_some {p : Nat} {past : List SignEv} {e : SignEv} (h : outcomeOf p past ≠ none) :
    outcomeOf p (past ++ [e]) = outcomeOf p past := by
  rw [outcomeOf_append]
  cases hx : outcomeOf p past with
  | none => exact absurd hx h
  | some x => simp

/-- An event of a goroutine that is not waiting for an answer changes nothing. -/
theorem phaseInv_idle {total me : Nat} {ps : List Nat} {past : List SignEv} {s : SignPhase} {q : Nat} {e : SignEv}
    (he : (∃ r, e = .answered q r) ∨ e = .failed q) (h : PhaseInv total me ps past s) (hq : q ∉ s.asked) :
    PhaseInv total me ps (past ++ [e]) s := by
  have hsame : ∀ p ∈ ps, outcomeOf p (past ++ [e]) = outcomeOf p past := by
    intro p hp
    by_cases hpq : p = q
    · subst hpq
      refine outcome_snoc_some fun hn => hq ((h.asked p).2 ⟨hp, hn⟩)
    · exact outcome_snoc_ne he hpq
  refine ⟨h.asked_nodup, ?_, h.due_nodup, ?_, h.counter, ?_, ?_, h.ended⟩
  · intro p
    rw [h.asked p]
    constructor
    · rintro ⟨a, b⟩; exact ⟨a, by rw [hsame p a]; exact b⟩
    · rintro ⟨a, b⟩; exact ⟨a, by rw [← hsame p a]; exact b⟩
  · intro p hp
    obtain ⟨a, b⟩ := h.due p hp
    exact ⟨a, by rw [hsame p a]; exact b⟩
  · rw [h.sigs]
    refine List.map_congr_left fun i _ => ?_
    by_cases hi : i + 1 ∈ ps
    · rw [if_pos hi, if_pos hi, hsame _ hi]
    · rw [if_neg hi, if_neg hi]
  · rw [h.eph]
    by_cases hi : me ∈ ps
    · rw [if_pos hi, if_pos hi, hsame _ hi]
    · rw [if_neg hi, if_neg hi]

/-- Moving a participant from waiting to finished. -/
theorem phaseInv_move {total me : Nat} {ps : List Nat} {past : List SignEv} {s s' : SignPhase} {q : Nat} {e : SignEv}
    (he : (∃ r, e = .answered q r) ∨ e = .failed q) (h : PhaseInv total me ps past s) (hq : q ∈ s.asked)
    (h1 : s'.asked = s.asked.erase q) (h2 : s'.due = s.due ++ [q]) (h3 : s'.counter = s.counter)
    (h4 : s'.ended = s.ended)
    (h5 : s'.sigs = (List.range total).map fun i => if i + 1 ∈ ps then sigIn (outcomeOf (i + 1) (past ++ [e])) else [])
    (h6 : s'.eph = if me ∈ ps then ephIn (outcomeOf me (past ++ [e])) else []) :
    PhaseInv total me ps (past ++ [e]) s' := by
  obtain ⟨hqp, hqn⟩ := (h.asked q).1 hq
  have hnew : outcomeOf q (past ++ [e]) ≠ none := by
    rw [outcomeOf_append, hqn]
    rcases he with ⟨r, rfl⟩ | rfl <;> simp [outcomeOf]
  have hlen : 0 < s.asked.length := List.length_pos_of_mem hq
  refine ⟨by rw [h1]; exact h.asked_nodup.erase _, ?_, ?_, ?_, ?_, h5, h6, ?_⟩
  · intro p
    rw [h1, h.asked_nodup.mem_erase_iff, h.asked p]
    constructor
    · rintro ⟨a, b, c⟩; exact ⟨b, by rw [outcome_snoc_ne he a]; exact c⟩
    · rintro ⟨a, b⟩
      have hne : p ≠ q := by rintro rfl; exact hnew b
      exact ⟨hne, a, by rw [← outcome_snoc_ne he hne]; exact b⟩
  · rw [h2]
    refine List.nodup_append.2 ⟨h.due_nodup, by simp, ?_⟩
    intro a ha b hb
    rw [List.mem_singleton] at hb
    subst hb
    rintro rfl
    exact (h.due _ ha).2 hqn
  · intro p hp
    rw [h2] at hp
    rcases List.mem_append.1 hp with hp | hp
    · obtain ⟨a, b⟩ := h.due p hp
      exact ⟨a, by rw [outcome_snoc_some b]; exact b⟩
    · rw [List.mem_singleton] at hp
      subst hp
      exact ⟨hqp, hnew⟩
  · rw [h3, h1, h2, h.counter, List.length_erase_of_mem hq, List.length_append, List.length_singleton]
    omega
  · intro hen
    rw [h4] at hen
    rw [(h.ended hen).1] at hq
    cases hq

theorem phaseInv_step {total me : Nat} {ps : List Nat} (hps : ∀ p ∈ ps, 1 ≤ p ∧ p ≤ total) {past : List SignEv}
    {s : SignPhase} (h : PhaseInv total me ps past s) (e : SignEv) :
    ∃ s', s.step me e = .ok s' ∧ PhaseInv total me ps (past ++ [e]) s' := by
  have hother : (∀ q r, e ≠ .answered q r) → (∀ q, e ≠ .failed q) → ∀ p, outcomeOf p (past ++ [e]) = outcomeOf p past := by
    intro h1 h2 p
    rw [outcomeOf_append]
    cases e with
    | answered q r => exact absurd rfl (h1 q r)
    | failed q => exact absurd rfl (h2 q)
    | _ => simp [outcomeOf]
  cases e with
  | failed q =>
    simp only [SignPhase.step]
    by_cases hq : q ∈ s.asked
    · rw [if_pos hq]
      obtain ⟨hqp, hqn⟩ := (h.asked q).1 hq
      have hnew : outcomeOf q (past ++ [.failed q]) = some none := by
        rw [outcomeOf_append, hqn]; simp [outcomeOf]
      refine ⟨_, rfl, phaseInv_move (.inr rfl) h hq rfl rfl rfl rfl ?_ ?_⟩
      · show s.sigs = _
        rw [h.sigs]
        refine List.map_congr_left fun i _ => ?_
        by_cases hi : i + 1 = q
        · rw [hi, hnew, hqn]; simp [sigIn]
        · rw [outcome_snoc_ne (.inr rfl) hi]
      · show s.eph = _
        rw [h.eph]
        by_cases hi : me = q
        · rw [hi, hnew, hqn]; simp [ephIn]
        · rw [outcome_snoc_ne (.inr rfl) hi]
    · rw [if_neg hq]; exact ⟨_, rfl, phaseInv_idle (.inr rfl) h hq⟩
  | answered q r =>
    simp only [SignPhase.step]
    by_cases hq : q ∈ s.asked
    · rw [if_pos hq]
      obtain ⟨hqp, hqn⟩ := (h.asked q).1 hq
      obtain ⟨hq1, hq2⟩ := hps q hqp
      have hnew : outcomeOf q (past ++ [.answered q r]) = some (some r) := by
        rw [outcomeOf_append, hqn]; simp [outcomeOf]
      have hl : s.sigs.length = total := by rw [h.sigs]; simp
      have hidx : goIndex s.sigs ((q : Int) - 1) = some (s.sigs[q - 1]'(by omega)) := by
        unfold goIndex
        rw [if_neg (by omega)]
        have : ((q : Int) - 1).toNat = q - 1 := by omega
        rw [this]
        exact List.getElem?_eq_getElem _
      rw [hidx]
      refine ⟨_, rfl, phaseInv_move (.inl ⟨r, rfl⟩) h hq rfl rfl rfl rfl ?_ ?_⟩
      · show s.sigs.set (q - 1) r.signature.bytes = _
        refine List.ext_getElem? fun i => ?_
        rw [List.getElem?_set, hl]
        by_cases hi : i < total
        · rw [List.getElem?_map, List.getElem?_range hi, h.sigs, List.getElem?_map, List.getElem?_range hi]
          simp only [Option.map_some]
          by_cases hiq : q - 1 = i
          · have : i + 1 = q := by omega
            rw [if_pos hiq, if_pos (by omega), this, if_pos hqp, hnew]
            rfl
          · have : i + 1 ≠ q := by omega
            rw [if_neg hiq, outcome_snoc_ne (.inl ⟨r, rfl⟩) this]
        · rw [List.getElem?_map, List.getElem?_eq_none (l := List.range total) (by rw [List.length_range]; omega)]
          by_cases hiq : q - 1 = i
          · omega
          · rw [if_neg hiq, List.getElem?_eq_none (by omega)]; rfl
      · show (if q = me then r.ephemeralPublic.bytes else s.eph) = _
        by_cases hi : q = me
        · subst hi
          rw [if_pos rfl, if_pos hqp, hnew]; rfl
        · rw [if_neg hi, h.eph, outcome_snoc_ne (.inl ⟨r, rfl⟩) (Ne.symm hi)]
    · rw [if_neg hq]; exact ⟨_, rfl, phaseInv_idle (.inl ⟨r, rfl⟩) h hq⟩
  | done q =>
    have hs := hother (by simp) (by simp)
    simp only [SignPhase.step]
    by_cases hq : q ∈ s.due
    · have hpos : 0 < s.due.length := List.length_pos_of_mem hq
      have hc := h.counter
      rw [if_pos hq, if_neg (by omega)]
      refine ⟨_, rfl, ⟨h.asked_nodup, by simpa only [hs] using h.asked, h.due_nodup.erase _,
        by simpa only [hs] using fun p hp => h.due p (List.mem_of_mem_erase hp), ?_, by simpa only [hs] using h.sigs,
        by simpa only [hs] using h.eph, ?_⟩⟩
      · simp only
        rw [List.length_erase_of_mem hq]; omega
      · intro hen
        have := (h.ended hen).2
        rw [this] at hq; cases hq
    · rw [if_neg hq]
      exact ⟨_, rfl, ⟨h.asked_nodup, by simpa only [hs] using h.asked, h.due_nodup, by simpa only [hs] using h.due,
        h.counter, by simpa only [hs] using h.sigs, by simpa only [hs] using h.eph, h.ended⟩⟩
  | proceed =>
    have hs := hother (by simp) (by simp)
    have keep : ∀ en, (en = some true → s.asked = [] ∧ s.due = []) →
        PhaseInv total me ps (past ++ [.proceed]) { s with ended := en } := fun en hen =>
      ⟨h.asked_nodup, by simpa only [hs] using h.asked, h.due_nodup, by simpa only [hs] using h.due,
        h.counter, by simpa only [hs] using h.sigs, by simpa only [hs] using h.eph, hen⟩
    simp only [SignPhase.step]
    split
    · next hc =>
      refine ⟨_, rfl, keep _ fun _ => ?_⟩
      have := h.counter
      exact ⟨List.length_eq_zero_iff.1 (by omega), List.length_eq_zero_iff.1 (by omega)⟩
    · exact ⟨_, rfl, keep s.ended h.ended⟩
  | timeout =>
    have hs := hother (by simp) (by simp)
    have keep : ∀ en, (en = some true → s.asked = [] ∧ s.due = []) →
        PhaseInv total me ps (past ++ [.timeout]) { s with ended := en } := fun en hen =>
      ⟨h.asked_nodup, by simpa only [hs] using h.asked, h.due_nodup, by simpa only [hs] using h.due,
        h.counter, by simpa only [hs] using h.sigs, by simpa only [hs] using h.eph, hen⟩
    simp only [SignPhase.step]
    split
    · exact ⟨_, rfl, keep _ (by simp)⟩
    · exact ⟨_, rfl, keep s.ended h.ended⟩

theorem phaseInv_run {total me : Nat} {ps : List Nat} (hps : ∀ p ∈ ps, 1 ≤ p ∧ p ≤ total) :
    ∀ (es past : List SignEv) (s : SignPhase), PhaseInv total me ps past s →
    ∃ s', SignPhase.run me s es = .ok s' ∧ PhaseInv total me ps (past ++ es) s' := by
  intro es
  induction es with
  | nil => intro past s h; exact ⟨s, rfl, by simpa using h⟩
  | cons e es ih =>
    intro past s h
    obtain ⟨s1, h1, h2⟩ := phaseInv_step hps h e
    obtain ⟨s', h3, h4⟩ := ih _ s1 h2
    refine ⟨s', ?_, by simpa using h4⟩
    unfold SignPhase.run
    rw [h1]; exact h3

end Horcrux
