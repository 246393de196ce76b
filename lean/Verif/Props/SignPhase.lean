import Verif.Lemmas.SignPhase
import Verif.Props.Round
import Verif.Props.Start
/-
Property C71: signing rounds do not crash the leader, and the signature table is complete when it is read.
-/
namespace Horcrux
open Spec

/-! ### The table -/

/-- C71: however the answers of `t` different participants with IDs in `1..total`, their failures, the deferred `Done`s,
the wait and the timeout are ordered, nothing crashes; and if the wait completes, then every participant has answered or
failed, the table holds at each position the share signature this participant answered (nothing for failed ones and for
others), and the ephemeral public key is the one the leader's own cosigner answered. -/
theorem C71_table (t total me : Nat) (ps : List Nat) (hnd : ps.Nodup) (hlen : ps.length = t)
    (hps : ∀ p ∈ ps, 1 ≤ p ∧ p ≤ total) (es : List SignEv) :
    ∃ s0 s, SignPhase.start t total ps = .ok s0 ∧ SignPhase.run me s0 es = .ok s ∧
      (s.ended = some true → (∀ p ∈ ps, outcomeOf p es ≠ none) ∧ s.sigs.length = total ∧
        (∀ p ∈ ps, s.sigs[p - 1]? = some (sigIn (outcomeOf p es))) ∧
        (∀ i, i < total → i + 1 ∉ ps → s.sigs[i]? = some []) ∧
        (me ∈ ps → s.eph = ephIn (outcomeOf me es))) := by
  obtain ⟨s0, h0, hi, _⟩ := phaseInv_start t total me ps hnd (by omega)
  obtain ⟨s, hr, h⟩ := phaseInv_run hps es [] s0 hi
  rw [List.nil_append] at h
  refine ⟨s0, s, h0, hr, fun hen => ⟨?_, by rw [h.sigs]; simp, ?_, ?_, ?_⟩⟩
  · intro p hp hn
    have := (h.asked p).2 ⟨hp, hn⟩
    rw [(h.ended hen).1] at this
    cases this
  · intro p hp
    obtain ⟨h1, h2⟩ := hps p hp
    rw [h.sigs, List.getElem?_map, List.getElem?_range (by omega)]
    simp only [Option.map_some]
    rw [Nat.sub_add_cancel h1, if_pos hp]
  · intro i hi hip
    rw [h.sigs, List.getElem?_map, List.getElem?_range hi]
    simp only [Option.map_some]
    rw [if_neg hip]
  · intro hme
    rw [h.eph, if_pos hme]

theorem answered_of_outcome {p : Nat} {r : SignRes} : ∀ {l : List SignEv}, outcomeOf p l = some (some r) →
    SignEv.answered p r ∈ l
  | [], h => by cases h
  | .failed q :: l, h => by
    simp only [outcomeOf] at h
    by_cases hq : q = p
    · rw [if_pos hq] at h; cases h
    · rw [if_neg hq] at h; exact List.mem_cons_of_mem _ (answered_of_outcome h)
  | .answered q r' :: l, h => by
    simp only [outcomeOf] at h
    by_cases hq : q = p
    · rw [if_pos hq] at h; cases h; subst hq; simp
    · rw [if_neg hq] at h; exact List.mem_cons_of_mem _ (answered_of_outcome h)
  | .done _ :: l, h => List.mem_cons_of_mem _ (answered_of_outcome (l := l) h)
  | .proceed :: l, h => List.mem_cons_of_mem _ (answered_of_outcome (l := l) h)
  | .timeout :: l, h => List.mem_cons_of_mem _ (answered_of_outcome (l := l) h)

/-- The table is that of answers given one after the other, if every outcome is what `res` says. -/
theorem table_shareArray (t total me : Nat) (ps : List Nat) (hnd : ps.Nodup) (hlen : ps.length = t)
    (hps : ∀ p ∈ ps, 1 ≤ p ∧ p ≤ total) (es : List SignEv) (res : Nat → Out SignRes)
    (key : ∀ p, p ∈ ps → outcomeOf p es ≠ none → (∃ r, outcomeOf p es = some (some r) ∧ res p = .ok r) ∨
      (outcomeOf p es = some none ∧ ∀ r, res p ≠ .ok r))
    (s0 s : SignPhase) (h0 : SignPhase.start t total ps = .ok s0) (hr : SignPhase.run me s0 es = .ok s)
    (hen : s.ended = some true) :
    s.sigs = shareArray total ps res ∧
    (me ∈ ps → s.eph = match res me with | .ok r => r.ephemeralPublic.bytes | _ => []) := by
  obtain ⟨s0', s', h0', hr', h⟩ := C71_table t total me ps hnd hlen hps es
  rw [h0] at h0'; cases h0'
  rw [hr] at hr'; cases hr'
  obtain ⟨h1, h2, h3, h4, h5⟩ := h hen
  have key := fun p hp => key p hp (h1 p hp)
  refine ⟨?_, ?_⟩
  · refine List.ext_getElem? fun i => ?_
    unfold shareArray
    by_cases hi : i < total
    · rw [List.getElem?_map, List.getElem?_range hi]
      simp only [Option.map_some]
      by_cases hip : i + 1 ∈ ps
      · have := h3 (i + 1) hip
        rw [Nat.add_sub_cancel] at this
        rw [this, if_pos hip]
        rcases key _ hip with ⟨r, e1, e2⟩ | ⟨e1, e2⟩
        · rw [e1, e2]; rfl
        · rw [e1]
          cases hres : res (i + 1) with
          | ok r => exact absurd hres (e2 r)
          | err _ => rfl
          | panic => rfl
      · rw [h4 i hi hip, if_neg hip]
    · rw [List.getElem?_eq_none (by omega), List.getElem?_map,
        List.getElem?_eq_none (l := List.range total) (by rw [List.length_range]; omega)]
      rfl
  · intro hme
    rw [h5 hme]
    rcases key _ hme with ⟨r, e1, e2⟩ | ⟨e1, e2⟩
    · rw [e1, e2]; rfl
    · rw [e1]
      cases hres : res me with
      | ok r => exact absurd hres (e2 r)
      | err _ => rfl
      | panic => rfl

/-- C71: so if the calls to the participants come out as `res` says, the table read is `shareArray`, the one the model of a
whole round (C21, C24, C63) uses. -/
theorem C71_shareArray (t total me : Nat) (ps : List Nat) (hnd : ps.Nodup) (hlen : ps.length = t)
    (hps : ∀ p ∈ ps, 1 ≤ p ∧ p ≤ total) (es : List SignEv) (res : Nat → Out SignRes)
    (hok : ∀ p r, SignEv.answered p r ∈ es → res p = .ok r) (hfail : ∀ p, SignEv.failed p ∈ es → ∀ r, res p ≠ .ok r)
    (s0 s : SignPhase) (h0 : SignPhase.start t total ps = .ok s0) (hr : SignPhase.run me s0 es = .ok s)
    (hen : s.ended = some true) :
    s.sigs = shareArray total ps res ∧
    (me ∈ ps → s.eph = match res me with | .ok r => r.ephemeralPublic.bytes | _ => []) := by
  refine table_shareArray t total me ps hnd hlen hps es res ?_ s0 s h0 hr hen
  have key : ∀ p, p ∈ ps → outcomeOf p es ≠ none → (∃ r, outcomeOf p es = some (some r) ∧ res p = .ok r) ∨
      (outcomeOf p es = some none ∧ ∀ r, res p ≠ .ok r) := by
    intro p hp hne
    have gen : ∀ l : List SignEv, (∀ e ∈ l, e ∈ es) → outcomeOf p l ≠ none →
        (∃ r, outcomeOf p l = some (some r) ∧ res p = .ok r) ∨ (outcomeOf p l = some none ∧ ∀ r, res p ≠ .ok r) := by
      intro l
      induction l with
      | nil => intro _ h; exact absurd rfl h
      | cons e l ih =>
        intro hsub hne
        have ih' := ih (fun e he => hsub e (List.mem_cons_of_mem _ he))
        cases e with
        | failed q =>
          simp only [outcomeOf] at hne ⊢
          by_cases hq : q = p
          · rw [if_pos hq]; subst hq
            exact .inr ⟨rfl, hfail _ (hsub _ (List.mem_cons_self ..))⟩
          · rw [if_neg hq] at hne ⊢; exact ih' hne
        | answered q r =>
          simp only [outcomeOf] at hne ⊢
          by_cases hq : q = p
          · rw [if_pos hq]; subst hq
            exact .inl ⟨r, rfl, hok _ _ (hsub _ (List.mem_cons_self ..))⟩
          · rw [if_neg hq] at hne ⊢; exact ih' hne
        | done q => exact ih' hne
        | proceed => exact ih' hne
        | timeout => exact ih' hne
    exact gen es (fun _ h => h) hne
  exact key

/-- C71: once the wait has completed nothing writes to the table any more. -/
theorem C71_stable (t total me : Nat) (ps : List Nat) (hnd : ps.Nodup) (hlen : ps.length = t)
    (hps : ∀ p ∈ ps, 1 ≤ p ∧ p ≤ total) (es es' : List SignEv) (s0 s s' : SignPhase)
    (h0 : SignPhase.start t total ps = .ok s0) (hr : SignPhase.run me s0 es = .ok s)
    (hr' : SignPhase.run me s es' = .ok s') (hen : s.ended = some true) :
    s'.sigs = s.sigs ∧ s'.eph = s.eph := by
  obtain ⟨s0', h0', hi, _⟩ := phaseInv_start t total me ps hnd (by omega)
  rw [h0] at h0'; cases h0'
  obtain ⟨s1, hr1, h1⟩ := phaseInv_run hps es [] s0 hi
  rw [hr] at hr1; cases hr1
  rw [List.nil_append] at h1
  obtain ⟨s2, hr2, h2⟩ := phaseInv_run hps es' _ s h1
  rw [hr'] at hr2; cases hr2
  have hsame : ∀ p ∈ ps, outcomeOf p (es ++ es') = outcomeOf p es := by
    intro p hp
    rw [outcomeOf_append]
    cases hx : outcomeOf p es with
    | some x => simp
    | none =>
      have := (h1.asked p).2 ⟨hp, hx⟩
      rw [(h1.ended hen).1] at this
      cases this
  refine ⟨?_, ?_⟩
  · rw [h1.sigs, h2.sigs]
    refine List.map_congr_left fun i _ => ?_
    by_cases hip : i + 1 ∈ ps
    · rw [if_pos hip, if_pos hip, hsame _ hip]
    · rw [if_neg hip, if_neg hip]
  · rw [h1.eph, h2.eph]
    by_cases hip : me ∈ ps
    · rw [if_pos hip, if_pos hip, hsame _ hip]
    · rw [if_neg hip, if_neg hip]

/-- A goroutine that has finished stays finished. -/
theorem gone_run {me : Nat} (p : Nat) : ∀ (es : List SignEv) (s s' : SignPhase), SignPhase.run me s es = .ok s' →
    p ∉ s.asked → p ∉ s.due → p ∉ s'.asked ∧ p ∉ s'.due := by
  intro es
  induction es with
  | nil => intro s s' h h1 h2; simp only [SignPhase.run, Out.ok.injEq] at h; subst h; exact ⟨h1, h2⟩
  | cons e es ih =>
    intro s s' h h1 h2
    simp only [SignPhase.run] at h
    cases hs : s.step me e with
    | err _ => rw [hs] at h; cases h
    | panic => rw [hs] at h; cases h
    | ok s1 =>
      rw [hs] at h
      have : p ∉ s1.asked ∧ p ∉ s1.due := by
        cases e with
        | failed q =>
          simp only [SignPhase.step] at hs
          split at hs
          · next hq =>
            cases hs
            exact ⟨fun hc => h1 (List.mem_of_mem_erase hc), by simp only [List.mem_append, List.mem_singleton, not_or]; exact ⟨h2, fun hc => h1 (hc ▸ hq)⟩⟩
          · cases hs; exact ⟨h1, h2⟩
        | answered q r =>
          simp only [SignPhase.step] at hs
          split at hs
          · next hq =>
            split at hs
            · cases hs
            · cases hs
              exact ⟨fun hc => h1 (List.mem_of_mem_erase hc), by simp only [List.mem_append, List.mem_singleton, not_or]; exact ⟨h2, fun hc => h1 (hc ▸ hq)⟩⟩
          · cases hs; exact ⟨h1, h2⟩
        | done q =>
          simp only [SignPhase.step] at hs
          split at hs
          · split at hs
            · cases hs
            · cases hs; exact ⟨h1, fun hc => h2 (List.mem_of_mem_erase hc)⟩
          · cases hs; exact ⟨h1, h2⟩
        | proceed => simp only [SignPhase.step] at hs; split at hs <;> cases hs <;> exact ⟨h1, h2⟩
        | timeout => simp only [SignPhase.step] at hs; split at hs <;> cases hs <;> exact ⟨h1, h2⟩
      exact ih s1 s' h this.1 this.2

theorem phase_run_append {me : Nat} (a b : List SignEv) (s : SignPhase) : SignPhase.run me s (a ++ b) =
    match SignPhase.run me s a with | .ok s' => SignPhase.run me s' b | .err e => .err e | .panic => .panic := by
  induction a generalizing s with
  | nil => rfl
  | cons e a ih =>
    simp only [List.cons_append, SignPhase.run]
    cases s.step me e <;> simp [ih]

/-- Without a timeout the wait does not end with one. -/
theorem ended_run {me : Nat} : ∀ (es : List SignEv) (s s' : SignPhase), SignPhase.run me s es = .ok s' →
    SignEv.timeout ∉ es → s.ended ≠ some false → s'.ended ≠ some false := by
  intro es
  induction es with
  | nil => intro s s' h _ h1; simp only [SignPhase.run, Out.ok.injEq] at h; subst h; exact h1
  | cons e es ih =>
    intro s s' h ht h1
    simp only [SignPhase.run] at h
    simp only [List.mem_cons, not_or] at ht
    cases hs : s.step me e with
    | err _ => rw [hs] at h; cases h
    | panic => rw [hs] at h; cases h
    | ok s1 =>
      rw [hs] at h
      refine ih s1 s' h ht.2 ?_
      cases e with
      | timeout => exact absurd rfl ht.1
      | failed q => simp only [SignPhase.step] at hs; split at hs <;> cases hs <;> exact h1
      | answered q r =>
        simp only [SignPhase.step] at hs
        split at hs
        · split at hs
          · cases hs
          · cases hs; exact h1
        · cases hs; exact h1
      | done q =>
        simp only [SignPhase.step] at hs
        split at hs
        · split at hs
          · cases hs
          · cases hs; exact h1
        · cases hs; exact h1
      | proceed =>
        simp only [SignPhase.step] at hs
        split at hs
        · cases hs; simp
        · cases hs; exact h1

/-- C71: the wait does complete: once every participant has answered or failed and its goroutine has finished, unless the
time was up before. -/
theorem C71_completes (t total me : Nat) (ps : List Nat) (hnd : ps.Nodup) (hlen : ps.length = t)
    (hps : ∀ p ∈ ps, 1 ≤ p ∧ p ≤ total) (es : List SignEv) (hto : SignEv.timeout ∉ es)
    (hall : ∀ p ∈ ps, ∃ a b, es = a ++ .done p :: b ∧ outcomeOf p a ≠ none) :
    ∃ s0 s, SignPhase.start t total ps = .ok s0 ∧ SignPhase.run me s0 (es ++ [.proceed]) = .ok s ∧
      s.ended = some true := by
  obtain ⟨s0, h0, hi, he0⟩ := phaseInv_start t total me ps hnd (by omega)
  obtain ⟨s, hr, h⟩ := phaseInv_run hps es [] s0 hi
  rw [List.nil_append] at h
  have hgone : ∀ p ∈ ps, p ∉ s.asked ∧ p ∉ s.due := by
    intro p hp
    obtain ⟨a, b, rfl, ho⟩ := hall p hp
    obtain ⟨s1, hr1, h1⟩ := phaseInv_run hps a [] s0 hi
    rw [List.nil_append] at h1
    rw [phase_run_append, hr1] at hr
    simp only [SignPhase.run] at hr
    have hna : p ∉ s1.asked := fun hc => ho ((h1.asked p).1 hc).2
    cases hs : s1.step me (.done p) with
    | err _ => rw [hs] at hr; cases hr
    | panic => rw [hs] at hr; cases hr
    | ok s2 =>
      rw [hs] at hr
      refine gone_run p b s2 s hr ?_ ?_ <;> simp only [SignPhase.step] at hs <;> split at hs
      · split at hs <;> cases hs; exact hna
      · cases hs; exact hna
      · split at hs <;> cases hs; exact h1.due_nodup.not_mem_erase
      · next hd => cases hs; exact hd
  have ha : s.asked = [] := List.eq_nil_iff_forall_not_mem.2 fun p hp => (hgone p ((h.asked p).1 hp).1).1 hp
  have hd : s.due = [] := List.eq_nil_iff_forall_not_mem.2 fun p hp => (hgone p (h.due p hp).1).2 hp
  have hc : s.counter = 0 := by rw [h.counter, ha, hd]; simp
  have hen := ended_run es s0 s hr hto (by rw [he0]; simp)
  refine ⟨s0, if s.ended = none then { s with ended := some true } else s, h0, ?_, ?_⟩
  · rw [phase_run_append, hr]
    simp only [SignPhase.run, SignPhase.step, hc, true_and]
    by_cases hx : s.ended = none <;> simp [hx]
  · split
    · rfl
    · next hne =>
      cases hx : s.ended with
      | none => exact absurd hx hne
      | some b => cases b <;> simp_all

/-- Participants 2, 4 and the leader 1 of five: 4 fails, 2 and 1 answer. -/
def phaseEvs : List SignEv :=
  [.answered 2 ⟨some [7], some [8], none⟩, .failed 4, .done 4, .done 2, .answered 1 ⟨some [5], some [6], none⟩, .done 1,
    .proceed, .timeout]

example : SignPhase.run 1 ⟨List.replicate 5 [], [], 3, [2, 4, 1], [], none⟩ phaseEvs =
    .ok ⟨[[6], [8], [], [], []], [5], 0, [], [], some true⟩ ∧
    (∀ p ∈ [2, 4, 1], ∃ a b, phaseEvs = a ++ SignEv.done p :: b ∧ outcomeOf p a ≠ none) := by
  refine ⟨by decide, ?_⟩
  intro p hp
  simp only [List.mem_cons, List.not_mem_nil, or_false] at hp
  rcases hp with rfl | rfl | rfl
  · exact ⟨phaseEvs.take 3, phaseEvs.drop 4, by decide, by decide⟩
  · exact ⟨phaseEvs.take 2, phaseEvs.drop 3, by decide, by decide⟩
  · exact ⟨phaseEvs.take 5, phaseEvs.drop 6, by decide, by decide⟩

/-! ### Crashes -/

/-- The peers `l` answer and finish: all join, and the leader proceeds if they are `t - 1`. -/
theorem collect_answers (t : Nat) : ∀ (l j d : List Nat) (c : Int), j.length + l.length + 1 ≤ t →
    Collect.run t ⟨j, c, d, false⟩ (l.map CollectEv.answered) = .ok ⟨j ++ l, c, d ++ l, false⟩ := by
  intro l
  induction l with
  | nil => intro j d c _; simp [Collect.run]
  | cons p l ih =>
    intro j d c h
    simp only [List.length_cons] at h
    simp only [List.map_cons, Collect.run, Collect.step]
    rw [if_pos (by omega)]
    simp only
    rw [ih (j ++ [p]) (d ++ [p]) c (by simp; omega)]
    simp

theorem collect_dones (t : Nat) : ∀ (l j : List Nat), Collect.run t ⟨j, l.length, l, false⟩ (l.map CollectEv.done) =
    .ok ⟨j, 0, [], false⟩ := by
  intro l
  induction l with
  | nil => intro j; simp [Collect.run]
  | cons p l ih =>
    intro j
    simp only [List.map_cons, Collect.run, Collect.step, List.mem_cons, true_or, if_true, List.length_cons]
    rw [if_neg (by omega)]
    simp only [List.erase_cons_head]
    have : ((l.length + 1 : Nat) : Int) - 1 = l.length := by omega
    rw [this]
    exact ih j

theorem collect_run_append (t : Int) (a b : List CollectEv) (s s' : Collect) (h : Collect.run t s a = .ok s') :
    Collect.run t s (a ++ b) = Collect.run t s' b := by
  induction a generalizing s with
  | nil => simp [Collect.run] at h; subst h; rfl
  | cons e a ih =>
    simp only [List.cons_append, Collect.run] at h ⊢
    cases hs : s.step t e with
    | ok s1 => rw [hs] at h; simp only at h ⊢; exact ih s1 h
    | err _ => rw [hs] at h; cases h
    | panic => rw [hs] at h; cases h

theorem answersOf_map (l : List Nat) : answersOf (l.map CollectEv.answered) = l := by
  induction l with
  | nil => rfl
  | cons p l ih => simp [answersOf, ih]

theorem answersOf_append (a b : List CollectEv) : answersOf (a ++ b) = answersOf a ++ answersOf b := by
  induction a with
  | nil => rfl
  | cons e a ih => rw [List.cons_append, answersOf_cons, answersOf_cons e a, ih, List.append_assoc]

theorem answersOf_done (l : List Nat) : answersOf (l.map CollectEv.done) = [] := by
  induction l with
  | nil => rfl
  | cons p l ih => simp [answersOf, ih]

/-- A schedule in which exactly the peers `l` join. -/
theorem collect_joins (t : Nat) (me : Nat) (l : List Nat) (hl : l.length + 1 = t) (hnd : l.Nodup) (hme : me ∉ l) :
    ∃ es s0, Schedule me es ∧ answersOf es = l ∧ Collect.start t = .ok s0 ∧
      Collect.run t s0 es = .ok ⟨l ++ [me], 0, [], true⟩ := by
  have hans : answersOf (l.map CollectEv.answered ++ (l.map CollectEv.done ++ [.proceed me])) = l := by
    rw [answersOf_append, answersOf_append, answersOf_map, answersOf_done]; simp [answersOf]
  refine ⟨l.map .answered ++ (l.map .done ++ [.proceed me]), ⟨[], (t : Int) - 1, [], false⟩, ⟨by rw [hans]; exact hnd, ?_,
    by rw [hans]; exact hme⟩, hans, ?_, ?_⟩
  · intro x hx
    simpa using hx
  · unfold Collect.start
    rw [if_neg (by omega)]
  · rw [collect_run_append _ _ _ _ _ (collect_answers t l [] [] _ (by simp; omega))]
    have : (t : Int) - 1 = l.length := by omega
    rw [this]
    simp only [List.nil_append]
    rw [collect_run_append _ _ _ _ _ (collect_dones t l l)]
    simp [Collect.run, Collect.step]

/-- C71, exactly: a leader with ID `me`, peers `ids` and threshold `t` (`1 ≤ t ≤ n`) never crashes in a signing round,
whatever the peers answer and in whatever order, if and only if its own ID and, unless it signs alone, the IDs of all its
peers are positions in the table of `total` entries. -/
theorem C71_exact (t total me : Nat) (ids : List Nat) (ht : 1 ≤ t) (htn : t ≤ ids.length + 1) (hnd : ids.Nodup)
    (hme : me ∉ ids) :
    (∀ es es', Schedule me es → (∀ p ∈ answersOf es, p ∈ ids) → leaderRound t total me es es' ≠ .panic) ↔
    (1 ≤ me ∧ me ≤ total) ∧ (2 ≤ t → ∀ p ∈ ids, 1 ≤ p ∧ p ≤ total) := by
  constructor
  · intro h
    have hbad : ∀ (l : List Nat) (q : Nat), l.length + 1 = t → l.Nodup → (∀ p ∈ l, p ∈ ids) → q ∈ l ++ [me] →
        1 ≤ q ∧ q ≤ total := by
      intro l q h1 h2 h3 hq
      obtain ⟨es, s0, g1, g2, g3, g4⟩ := collect_joins t me l h1 h2 (fun hc => hme (h3 _ hc))
      by_contra hc
      refine h es [.answered q ⟨none, none, none⟩] g1 (by rw [g2]; exact h3) ?_
      have hidx : goIndex (List.replicate total ([] : Bytes)) ((q : Int) - 1) = none := by
        unfold goIndex
        by_cases hq0 : (q : Int) - 1 < 0
        · rw [if_pos hq0]
        · rw [if_neg hq0]
          refine List.getElem?_eq_none ?_
          rw [List.length_replicate]
          omega
      simp only [leaderRound, g3, g4, Bool.true_eq_false, if_false, SignPhase.start]
      rw [if_neg (by omega)]
      simp only [SignPhase.run, SignPhase.step, if_pos hq, hidx]
    refine ⟨?_, ?_⟩
    · refine hbad (ids.take (t - 1)) me (by rw [List.length_take]; omega) (hnd.sublist (List.take_sublist ..))
        (fun p hp => List.mem_of_mem_take hp) (by simp)
    · intro h2 p hp
      have hlen : (ids.erase p).length + 1 = ids.length := by
        have := List.length_pos_of_mem hp
        rw [List.length_erase_of_mem hp]; omega
      refine hbad (p :: (ids.erase p).take (t - 2)) p (by rw [List.length_cons, List.length_take]; omega) ?_ ?_ (by simp)
      · refine List.nodup_cons.2 ⟨?_, (hnd.erase _).sublist (List.take_sublist ..)⟩
        intro hc
        exact (hnd.not_mem_erase) (List.mem_of_mem_take hc)
      · intro q hq
        rcases List.mem_cons.1 hq with rfl | hq
        · exact hp
        · exact List.mem_of_mem_erase (List.mem_of_mem_take hq)
  · rintro ⟨h1, h2⟩ es es' hes hids
    obtain ⟨s0, s, g1, g2, g3, g4, _⟩ := C31_participants t ht me es hes
    simp only [leaderRound, g1, g2]
    by_cases hp : s.proceeded = false
    · rw [if_pos hp]; simp
    · rw [if_neg hp]
      have hp' : s.proceeded = true := by simpa using hp
      obtain ⟨_, g5, g6⟩ := g4 hp'
      have hps : ∀ p ∈ s.joined, 1 ≤ p ∧ p ≤ total := by
        intro p hpj
        rw [g3, hp', if_pos rfl] at hpj
        rcases List.mem_append.1 hpj with hpj | hpj
        · by_cases ht2 : 2 ≤ t
          · exact h2 ht2 p (hids p (List.mem_of_mem_take hpj))
          · have : t - 1 = 0 := by omega
            rw [this] at hpj; simp at hpj
        · rw [List.mem_singleton] at hpj
          subst hpj; exact h1
      obtain ⟨p0, p1, k1, k2, _⟩ := C71_table t total me s.joined g6 g5 hps es'
      simp [k1, k2]

/-- C71, partial: a leader started from an accepted configuration that lists all other cosigners (`shares` is the number of
peers plus one, as `config init` writes it), with a threshold of at least one, at most 255 shares and a key of the share
that is not among the peers, never crashes in a signing round. Missing: thresholds below one and configurations that list
only some of the peers, which are accepted too, see `C71_threshold_fails` and `C71_gap_fails`. -/
theorem C71_partial (lib : Lib) (cf : Config) (c : CosignerConfig) (ha : Accepted lib cf c)
    (hall : c.shares = c.peers.length + 1) (h255 : c.shares ≤ 255) (ht : 1 ≤ c.threshold) (me : Nat)
    (hme : 1 ≤ me ∧ me ≤ c.shares) (hnot : ∀ p ∈ c.peers, p.shareID ≠ me) (es : List CollectEv) (es' : List SignEv)
    (hes : Schedule me es) (hpeers : ∀ p ∈ answersOf es, ∃ q ∈ c.peers, q.shareID = p) :
    leaderRound c.threshold (u8 (c.peers.length + 1)) me es es' ≠ .panic := by
  obtain ⟨_, _, h2, _, _, h5, _⟩ := (accepted_iff lib cf c).1 ha
  obtain ⟨h6, h7, _⟩ := (validateCosignerPeers_iff _ _).1 h5
  have htot : u8 ((c.peers.length : Int) + 1) = c.peers.length + 1 := by unfold u8; omega
  have hct : c.threshold = ((c.threshold.toNat : Nat) : Int) := by omega
  rw [htot, hct]
  have hcast : ∀ p ∈ c.peers, ((p.shareID.toNat : Nat) : Int) = p.shareID := fun p hp => by have := h7 p hp; omega
  refine (C71_exact c.threshold.toNat (c.peers.length + 1) me (c.peers.map fun p => p.shareID.toNat) (by omega)
    (by simp; omega) ?_ ?_).2 ⟨⟨hme.1, by omega⟩, fun _ p hp => ?_⟩ es es' hes ?_
  · have hinj : ((c.peers.map fun p => p.shareID.toNat).map fun n : Nat => (n : Int)) = c.peers.map (·.shareID) := by
      rw [List.map_map]
      exact List.map_congr_left fun p hp => hcast p hp
    exact List.Nodup.of_map (fun n : Nat => (n : Int)) (by rw [hinj]; exact h6)
  · intro hm
    obtain ⟨p, hp, hpm⟩ := List.mem_map.1 hm
    exact hnot p hp (by rw [← hpm, hcast p hp])
  · obtain ⟨q, hq, rfl⟩ := List.mem_map.1 hp
    have := h7 q hq
    omega
  · intro p hp
    obtain ⟨q, hq, hqp⟩ := hpeers p hp
    exact List.mem_map.2 ⟨q, hq, by omega⟩

example : Accepted demoLib demoConfig ⟨2, 3, [108], [⟨2, [97]⟩, ⟨3, [98]⟩], [49]⟩ ∧
    Schedule 1 [.answered 3, .done 3, .answered 2, .proceed 1] ∧
    leaderRound 2 (u8 (2 + 1)) 1 [.answered 3, .done 3, .answered 2, .proceed 1]
      [.answered 1 ⟨some [5], some [6], none⟩, .answered 3 ⟨some [7], some [8], none⟩, .done 3, .done 1, .proceed] =
      .ok (some ⟨[[6], [], [8]], [5], 0, [], [], some true⟩) :=
  ⟨⟨rfl, by decide +kernel⟩, ⟨by decide, by intro x hx; simpa using hx, by decide⟩, by decide +kernel⟩

/-- C71 (full statement) is false: every accepted configuration with a threshold below one (there are such, of any number
of shares) crashes the leader on its first signing round. -/
theorem C71_threshold_fails (n : Nat) (hn : 2 ≤ n) (t : Int) (ht : t ≤ 0) :
    ∃ cfg c, Accepted demoLib cfg c ∧ c.threshold = t ∧ c.shares = n ∧ c.peers.length + 1 = n ∧
      ∀ total me es es', leaderRound c.threshold total me es es' = .panic := by
  obtain ⟨cfg, c, h1, h2, h3, h4⟩ := C25_fails n hn t (by omega)
  refine ⟨cfg, c, h1, h2, h3, h4, fun total me es es' => ?_⟩
  unfold leaderRound Collect.start
  rw [if_pos (by omega)]

/-- C71 (full statement) is false: with an accepted configuration that leaves out a peer, the answer of a peer whose ID
exceeds the number of cosigners crashes the leader. -/
theorem C71_gap_fails : ∃ (cf : Config) (c : CosignerConfig) (es : List CollectEv) (es' : List SignEv),
    Accepted demoLib cf c ∧ c.shares = 3 ∧ c.threshold = 2 ∧ Schedule 1 es ∧
    (∀ p ∈ answersOf es, ∃ q ∈ c.peers, q.shareID = p) ∧
    leaderRound c.threshold (u8 (c.peers.length + 1)) 1 es es' = .panic :=
  ⟨gapConfig, _, [.answered 3, .done 3, .proceed 1], [.answered 3 ⟨some [7], some [8], none⟩], ⟨rfl, by decide +kernel⟩, rfl,
    rfl, ⟨by decide, by intro x hx; simpa using hx, by decide⟩, by simp [answersOf], by decide +kernel⟩

end Horcrux
