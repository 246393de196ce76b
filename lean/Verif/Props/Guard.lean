import Verif.Spec.Guard
import Verif.Props.FilePV
/-
Property C49: the guard of the validator.
-/
namespace Horcrux
open Spec

variable {M : Machine}

theorem setCall_same (s : GState M) (i : Nat) (c : CallSt M) : (s.setCall i c).call i = c := by simp [GState.setCall]
theorem setCall_other (s : GState M) {i j : Nat} (c : CallSt M) (h : j ≠ i) : (s.setCall i c).call j = s.call j := by
  simp [GState.setCall, h]

/-- All methods take the mutex. -/
theorem locks_all (m : PvMethod) : m.locks = true := by cases m <;> rfl

theorem inside_iff_lock {s0 : M.State} {tr : List (GEv M)} {s : GState M} (h : GRun s0 tr s) :
    ∀ i, Inside s i ↔ s.lock = some i := by
  induction h with
  | nil => intro i; simp [Inside, GState.start]
  | @snoc tr s t e h hs ih =>
    intro j
    cases hs with
    | @inv i q hi =>
      by_cases hj : j = i
      · subst hj
        have h1 : s.lock ≠ some j := by
          intro h2; obtain ⟨q', l', h3⟩ := (ih j).2 h2; rw [hi] at h3; cases h3
        simp only [Inside, setCall_same]
        constructor
        · rintro ⟨_, _, h4⟩; cases h4
        · intro h4; exact absurd h4 h1
      · simp only [Inside, setCall_other _ _ hj]; exact ih j
    | @acq i q hw hl =>
      have hn := hl (locks_all _)
      simp only [Inside, locks_all, if_true]
      by_cases hj : j = i
      · subst hj; simp [GState.setCall]
      · simp only [GState.setCall, hj, if_false]
        have := ih j
        rw [hn] at this
        simp only [Inside] at this
        constructor
        · intro h4; exact absurd (this.1 h4) (by simp)
        · intro h4; exact absurd (Option.some.inj h4).symm hj
    | @inner i q l l' t hw hst =>
      by_cases hj : j = i
      · subst hj
        simp only [Inside, GState.setCall, if_true]
        have := (ih j).1 ⟨q, l, hw⟩
        exact ⟨fun _ => this, fun _ => ⟨q, l', rfl⟩⟩
      · simp only [Inside, GState.setCall, hj, if_false]; exact ih j
    | @rel i q l r hw hd =>
      simp only [Inside, locks_all, if_true]
      by_cases hj : j = i
      · subst hj; simp [GState.setCall]
      · simp only [GState.setCall, hj, if_false]
        have h1 := (ih i).1 ⟨q, l, hw⟩
        constructor
        · intro h4
          have := (ih j).1 h4
          rw [h1] at this
          exact absurd (Option.some.inj this).symm hj
        · intro h4; cases h4
    | @ret i q r hw =>
      by_cases hj : j = i
      · subst hj
        have h1 : s.lock ≠ some j := by
          intro h2; obtain ⟨q', l', h3⟩ := (ih j).2 h2; rw [hw] at h3; cases h3
        simp only [Inside, setCall_same]
        constructor
        · rintro ⟨_, _, h4⟩; cases h4
        · intro h4; exact absurd h4 h1
      · simp only [Inside, setCall_other _ _ hj]; exact ih j
    | env he => exact ih j

/-- C49: at most one call is inside the validator, for any number of callers, any schedule and any validator. -/
theorem C49_exclusive (s0 : M.State) (tr : List (GEv M)) (s : GState M) (h : GRun s0 tr s) (i j : Nat)
    (hi : Inside s i) (hj : Inside s j) : i = j := by
  have h1 := (inside_iff_lock h i).1 hi
  have h2 := (inside_iff_lock h j).1 hj
  rw [h1] at h2
  exact Option.some.inj h2

theorem order_snoc (tr : List (GEv M)) (e : GEv M) : order (tr ++ [e]) = order tr ++ order [e] := by
  simp [order]

theorem order_append (tr tr' : List (GEv M)) : order (tr ++ tr') = order tr ++ order tr' := by
  simp [order]

/-- Relation of the schedule to sequential use. -/
theorem guard_sequential {s0 : M.State} {tr : List (GEv M)} {s : GState M} (h : GRun s0 tr s) :
    ∃ t, Sequential M s0 (order tr) t ∧
      ((s.lock = none ∧ Idle M t s.state) ∨
        (∃ i q l u, s.lock = some i ∧ s.call i = .inside q l ∧ Idle M t u ∧ Alone M u (M.start q) s.state l)) := by
  induction h with
  | nil => exact ⟨s0, .nil, .inl ⟨rfl, .refl⟩⟩
  | @snoc tr s t e h hs ih =>
    have hin := inside_iff_lock h
    obtain ⟨w, hseq, hst⟩ := ih
    rw [order_snoc]
    cases hs with
    | @inv i q hi =>
      refine ⟨w, by simpa [order] using hseq, ?_⟩
      rcases hst with hst | ⟨j, q', l, u, h1, h2, h3, h4⟩
      · exact .inl hst
      · refine .inr ⟨j, q', l, u, h1, ?_, h3, h4⟩
        have : j ≠ i := by rintro rfl; rw [hi] at h2; cases h2
        rw [setCall_other _ _ this]; exact h2
    | @acq i q hw hl =>
      have hn := hl (locks_all _)
      refine ⟨w, by simpa [order] using hseq, ?_⟩
      rcases hst with hst | ⟨j, q', l, u, h1, _⟩
      · refine .inr ⟨i, q, M.start q, s.state, by simp [locks_all], by simp [GState.setCall], hst.2, .refl⟩
      · rw [hn] at h1; cases h1
    | @inner i q l l' t' hw hst' =>
      refine ⟨w, by simpa [order] using hseq, ?_⟩
      have hl := (hin i).1 ⟨q, l, hw⟩
      rcases hst with hst | ⟨j, q', l2, u, h1, h2, h3, h4⟩
      · rw [hst.1] at hl; cases hl
      · rw [hl] at h1
        have hij := Option.some.inj h1
        subst hij
        rw [hw] at h2
        cases h2
        exact .inr ⟨i, q, l', u, hl, by simp [GState.setCall], h3, .step h4 hst'⟩
    | @rel i q l r hw hd =>
      have hl := (hin i).1 ⟨q, l, hw⟩
      rcases hst with hst | ⟨j, q', l2, u, h1, h2, h3, h4⟩
      · rw [hst.1] at hl; cases hl
      · rw [hl] at h1
        have hij := Option.some.inj h1
        subst hij
        rw [hw] at h2
        cases h2
        exact ⟨s.state, .call hseq h3 h4 hd, .inl ⟨by simp [locks_all], .refl⟩⟩
    | @ret i q r hw =>
      refine ⟨w, by simpa [order] using hseq, ?_⟩
      rcases hst with hst | ⟨j, q', l, u, h1, h2, h3, h4⟩
      · exact .inl hst
      · refine .inr ⟨j, q', l, u, h1, ?_, h3, h4⟩
        have : j ≠ i := by rintro rfl; rw [hw] at h2; cases h2
        rw [setCall_other _ _ this]; exact h2
    | @env t' he =>
      refine ⟨w, by simpa [order] using hseq, ?_⟩
      rcases hst with hst | ⟨j, q', l, u, h1, h2, h3, h4⟩
      · exact .inl ⟨hst.1, .env hst.2 he⟩
      · exact .inr ⟨j, q', l, u, h1, h2, h3, .env h4 he⟩

/-- The state of a call, from the schedule. -/
def CallOk (tr : List (GEv M)) (i : Nat) : CallSt M → Prop
  | .idle => (∀ q, .inv i q ∉ tr) ∧ (∀ q r, (i, q, r) ∉ order tr) ∧ ∀ r, .ret i r ∉ tr
  | .waiting q => .inv i q ∈ tr ∧ (∀ q r, (i, q, r) ∉ order tr) ∧ ∀ r, .ret i r ∉ tr
  | .inside q _ => .inv i q ∈ tr ∧ (∀ q r, (i, q, r) ∉ order tr) ∧ ∀ r, .ret i r ∉ tr
  | .released q r => .inv i q ∈ tr ∧ (∀ q' r', (i, q', r') ∈ order tr ↔ q' = q ∧ r' = r) ∧ ∀ r, .ret i r ∉ tr
  | .returned q r =>
    .inv i q ∈ tr ∧ (∀ q' r', (i, q', r') ∈ order tr ↔ q' = q ∧ r' = r) ∧ ∀ r', .ret i r' ∈ tr ↔ r' = r

/-- Events that are not about call `i`. -/
def Unaffected (e : GEv M) (i : Nat) : Prop :=
  (∀ q, e ≠ .inv i q) ∧ (∀ q r, e ≠ .rel i q r) ∧ ∀ r, e ≠ .ret i r

theorem callOk_snoc {tr : List (GEv M)} {i : Nat} {c : CallSt M} {e : GEv M} (h : CallOk tr i c) (hu : Unaffected e i) :
    CallOk (tr ++ [e]) i c := by
  obtain ⟨h1, h2, h3⟩ := hu
  have ho : ∀ q r, (i, q, r) ∈ order (tr ++ [e]) ↔ (i, q, r) ∈ order tr := by
    intro q r
    rw [order_snoc, List.mem_append]
    constructor
    · rintro (hm | hm)
      · exact hm
      · cases e <;> simp [order] at hm
        obtain ⟨rfl, rfl, rfl⟩ := hm
        exact absurd rfl (h2 _ _)
    · exact .inl
  have hi : ∀ q, GEv.inv i q ∈ tr ++ [e] ↔ GEv.inv i q ∈ tr := by
    intro q
    rw [List.mem_append, List.mem_singleton]
    exact ⟨fun h => h.resolve_right (fun hh => h1 q hh.symm), .inl⟩
  have hr : ∀ r, GEv.ret i r ∈ tr ++ [e] ↔ GEv.ret i r ∈ tr := by
    intro r
    rw [List.mem_append, List.mem_singleton]
    exact ⟨fun h => h.resolve_right (fun hh => h3 r hh.symm), .inl⟩
  cases c <;> simp only [CallOk, ho, hi, hr] at h ⊢ <;> exact h

theorem guard_calls {s0 : M.State} {tr : List (GEv M)} {s : GState M} (h : GRun s0 tr s) : ∀ i, CallOk tr i (s.call i) := by
  induction h with
  | nil => intro i; simp [GState.start, CallOk, order]
  | @snoc tr s t e h hs ih =>
    intro j
    cases hs with
    | @inv i q hi =>
      by_cases hj : j = i
      · subst hj
        have := ih j
        rw [hi] at this
        rw [setCall_same]
        refine ⟨by simp, ?_, ?_⟩
        · intro q r; rw [order_snoc]; simpa [order] using this.2.1 q r
        · intro r; simpa using this.2.2 r
      · rw [setCall_other _ _ hj]
        exact callOk_snoc (ih j) ⟨by rintro q' h'; cases h'; exact hj rfl, by simp, by simp⟩
    | @acq i q hw hl =>
      by_cases hj : j = i
      · subst hj
        have := ih j
        rw [hw] at this
        simp only [GState.setCall, if_true]
        refine ⟨by simpa using this.1, ?_, ?_⟩
        · intro q r; rw [order_snoc]; simpa [order] using this.2.1 q r
        · intro r; simpa using this.2.2 r
      · simp only [GState.setCall, hj, if_false]
        exact callOk_snoc (ih j) ⟨by simp, by simp, by simp⟩
    | @inner i q l l' t' hw hst' =>
      by_cases hj : j = i
      · subst hj
        have := ih j
        rw [hw] at this
        simp only [GState.setCall, if_true]
        refine ⟨by simpa using this.1, ?_, ?_⟩
        · intro q r; rw [order_snoc]; simpa [order] using this.2.1 q r
        · intro r; simpa using this.2.2 r
      · simp only [GState.setCall, hj, if_false]
        exact callOk_snoc (ih j) ⟨by simp, by simp, by simp⟩
    | @rel i q l r hw hd =>
      by_cases hj : j = i
      · subst hj
        have := ih j
        rw [hw] at this
        simp only [GState.setCall, if_true]
        refine ⟨by simpa using this.1, ?_, ?_⟩
        · intro q' r'
          rw [order_snoc, List.mem_append]
          have h2 := this.2.1 q' r'
          constructor
          · rintro (h3 | h3)
            · exact absurd h3 h2
            · simpa [order] using h3
          · intro h3; right; simpa [order] using h3
        · intro r; simpa using this.2.2 r
      · simp only [GState.setCall, hj, if_false]
        exact callOk_snoc (ih j) ⟨by simp, by rintro q' r' h'; cases h'; exact hj rfl, by simp⟩
    | @ret i q r hw =>
      by_cases hj : j = i
      · subst hj
        have := ih j
        rw [hw] at this
        rw [setCall_same]
        refine ⟨by simpa using this.1, ?_, ?_⟩
        · intro q' r'
          rw [order_snoc]
          simpa [order] using this.2.1 q' r'
        · intro r'
          rw [List.mem_append, List.mem_singleton]
          constructor
          · rintro (h3 | h3)
            · exact absurd h3 (this.2.2 r')
            · cases h3; rfl
          · rintro rfl; exact .inr rfl
      · rw [setCall_other _ _ hj]
        exact callOk_snoc (ih j) ⟨by simp, by simp, by rintro r' h'; cases h'; exact hj rfl⟩
    | env he => exact callOk_snoc (ih j) ⟨by simp, by simp, by simp⟩

theorem order_nodup {s0 : M.State} {tr : List (GEv M)} {s : GState M} (h : GRun s0 tr s) :
    ((order tr).map (·.1)).Nodup := by
  induction h with
  | nil => simp [order]
  | @snoc tr s t e h hs ih =>
    rw [order_snoc, List.map_append]
    have hc := guard_calls h
    cases hs with
    | @rel i q l r hw hd =>
      have := hc i
      rw [hw] at this
      rw [List.nodup_append]
      refine ⟨ih, by simp [order], ?_⟩
      intro a ha b hb hab
      simp only [order, List.filterMap_cons, List.filterMap_nil, List.map_cons, List.map_nil, List.mem_singleton] at hb
      subst hb
      subst hab
      simp only [List.mem_map] at ha
      obtain ⟨⟨a, q', r'⟩, h1, h2⟩ := ha
      simp only at h2
      subst h2
      exact this.2.1 q' r' h1
    | _ => simpa [order] using ih

/-- A prefix of a run is a run. -/
theorem grun_prefix {s0 : M.State} {tr tr' : List (GEv M)} {s : GState M} (h : GRun s0 (tr ++ tr') s) :
    ∃ t, GRun s0 tr t := by
  induction hl : tr'.length generalizing tr' s with
  | zero =>
    rw [List.length_eq_zero_iff] at hl
    subst hl
    rw [List.append_nil] at h
    exact ⟨s, h⟩
  | succ n ih =>
    rcases List.eq_nil_or_concat tr' with h1 | ⟨tr2, e, h1⟩
    · rw [h1] at hl; simp at hl
    · subst h1
      rw [List.concat_eq_append, ← List.append_assoc] at h
      generalize hg : tr ++ tr2 ++ [e] = full at h
      cases h with
      | nil => simp at hg
      | snoc h' _ =>
        have := List.append_inj' hg rfl
        rw [← this.1] at h'
        exact ih h' (by simp at hl; exact hl)

/-- C49: for any number of callers, any schedule and any validator, the calls that have left the validator are a
sequential use of it, with the same results and the same state (up to a call that is inside now, and changes that do not
pass the guard); each occurs once; what a caller got is its call's result in that use; and a call that was made after
another had returned comes later in it. -/
theorem C49_linear (s0 : M.State) (tr : List (GEv M)) (s : GState M) (h : GRun s0 tr s) :
    (∃ t, Sequential M s0 (order tr) t ∧
      ((s.lock = none ∧ Idle M t s.state) ∨
        (∃ i q l u, s.call i = .inside q l ∧ Idle M t u ∧ Alone M u (M.start q) s.state l))) ∧
    ((order tr).map (·.1)).Nodup ∧
    (∀ i r, .ret i r ∈ tr → ∃ q, .inv i q ∈ tr ∧ (i, q, r) ∈ order tr) ∧
    (∀ t1 t2 i r j q, tr = t1 ++ .inv j q :: t2 → .ret i r ∈ t1 →
      ∃ o1 o2, order tr = o1 ++ o2 ∧ i ∈ o1.map (·.1) ∧ j ∉ o1.map (·.1)) := by
  refine ⟨?_, order_nodup h, ?_, ?_⟩
  · obtain ⟨t, h1, h2⟩ := guard_sequential h
    refine ⟨t, h1, ?_⟩
    rcases h2 with h2 | ⟨i, q, l, u, _, h3⟩
    · exact .inl h2
    · exact .inr ⟨i, q, l, u, h3⟩
  · intro i r hr
    have := guard_calls h i
    generalize s.call i = c at this
    cases c with
    | idle => exact absurd hr (this.2.2 r)
    | waiting q => exact absurd hr (this.2.2 r)
    | inside q l => exact absurd hr (this.2.2 r)
    | released q r' => exact absurd hr (this.2.2 r)
    | returned q r' =>
      have h1 := (this.2.2 r).1 hr
      subst h1
      exact ⟨q, this.1, (this.2.1 q r).2 ⟨rfl, rfl⟩⟩
  · intro t1 t2 i r j q htr hr
    rw [htr] at h
    obtain ⟨u, hu⟩ := grun_prefix h
    refine ⟨order t1, order (.inv j q :: t2), by rw [htr, order_append], ?_, ?_⟩
    · have := guard_calls hu i
      generalize u.call i = c at this
      cases c with
      | returned q' r' =>
        exact List.mem_map.2 ⟨(i, q', r'), (this.2.1 q' r').2 ⟨rfl, rfl⟩, rfl⟩
      | _ => exact absurd hr (this.2.2 r)
    · intro hj
      obtain ⟨⟨j', q', r'⟩, h1, h2⟩ := List.mem_map.1 hj
      simp only at h2
      subst h2
      have h3 : t1 ++ GEv.inv j' q :: t2 = (t1 ++ [GEv.inv j' q]) ++ t2 := by simp
      rw [h3] at h
      obtain ⟨u', hu'⟩ := grun_prefix h
      generalize hg : t1 ++ [GEv.inv j' q] = full at hu'
      cases hu' with
      | nil => simp at hg
      | @snoc t1' s' _ e' h' hs' =>
        have := List.append_inj' hg rfl
        obtain ⟨rfl, h5⟩ := this
        simp only [List.cons.injEq, and_true] at h5
        subst h5
        cases hs' with
        | inv hi =>
          have h6 := guard_calls h' j'
          rw [hi] at h6
          exact h6.2.1 q' r' h1

/-- C49 when a call alone computes a function of the state and nobody else changes the state: the results and the state
are those of applying the function to the requests one after the other. -/
theorem C49_function (f : M.Req → M.State → M.Res × M.State) (s0 : M.State)
    (henv : ∀ s t, ¬ M.env s t)
    (hf : ∀ q s t l r, Alone M s (M.start q) t l → M.done l = some r → (r, t) = f q s)
    (tr : List (GEv M)) (s : GState M) (h : GRun s0 tr s) (hq : s.lock = none) :
    (order tr).map (·.2.2) = (((order tr).map (·.2.1)).foldl (fun (acc : List M.Res × M.State) q =>
        (acc.1 ++ [(f q acc.2).1], (f q acc.2).2)) ([], s0)).1 ∧
    s.state = (((order tr).map (·.2.1)).foldl (fun (acc : List M.Res × M.State) q =>
        (acc.1 ++ [(f q acc.2).1], (f q acc.2).2)) ([], s0)).2 := by
  obtain ⟨t, h1, h2⟩ := guard_sequential h
  have hidle : ∀ a b, Idle M a b → a = b := by
    intro a b hi
    cases hi with
    | refl => rfl
    | env _ he => exact absurd he (henv _ _)
  have hseq : ∀ cs u, Sequential M s0 cs u →
      (cs.map (·.2.1)).foldl (fun (acc : List M.Res × M.State) q =>
        (acc.1 ++ [(f q acc.2).1], (f q acc.2).2)) ([], s0) = (cs.map (·.2.2), u) := by
    intro cs u hs
    induction hs with
    | nil => rfl
    | @call cs a b c l i q r hs hi ha hd ih =>
      rw [List.map_append, List.foldl_append, ih]
      have h3 := hidle _ _ hi
      subst h3
      have h4 := hf q a c l r ha hd
      simp only [List.map_cons, List.map_nil, List.foldl_cons, List.foldl_nil, List.map_append, ← h4]
  rcases h2 with h2 | ⟨i, q, l, u, h3, _⟩
  · rw [hseq _ _ h1, ← hidle _ _ h2.2]
    exact ⟨rfl, rfl⟩
  · rw [hq] at h3; cases h3

/-! ### Single-signer mode -/

/-- tendermint's `FilePV` behind the guard, in two steps: sign and write the state; return. -/
def filePVMachine (sigOf : Bytes → Bytes) : Machine where
  Req := PvMethod × Block
  Res := Out (Bytes × Slice)
  State := FilePV
  Local := Block ⊕ Out (Bytes × Slice)
  method q := q.1
  start q := .inl q.2
  step s l t l' := ∃ b, l = .inl b ∧ l' = .inr (s.sign sigOf b).1 ∧ t = (s.sign sigOf b).2
  done l := match l with
    | .inl _ => none
    | .inr r => some r
  env _ _ := False

theorem filePV_alone {sigOf : Bytes → Bytes} (q : PvMethod × Block) (s t : (filePVMachine sigOf).State)
    (l : (filePVMachine sigOf).Local) (h : Alone (filePVMachine sigOf) s (Sum.inl q.2) t l) :
    (l = Sum.inl q.2 ∧ t = s) ∨
      (l = Sum.inr (FilePV.sign sigOf s q.2).1 ∧ t = (FilePV.sign sigOf s q.2).2) := by
  induction h with
  | refl => exact .inl ⟨rfl, rfl⟩
  | step h hs ih =>
    obtain ⟨b, h1, h2, h3⟩ := hs
    rcases ih with ⟨h4, h5⟩ | ⟨h4, h5⟩
    · rw [h4] at h1
      cases h1
      right
      subst h5
      exact ⟨h2, h3⟩
    · rw [h4] at h1; cases h1
  | env _ he => exact absurd he id

/-- Concurrent requests of any number of chain nodes to a single signer are a history as in C59: the signatures that
the nodes get are those of one request after the other. -/
theorem C49_single (sigOf : Bytes → Bytes) (s0 : FilePV) (tr : List (GEv (filePVMachine sigOf)))
    (s : GState (filePVMachine sigOf)) (h : GRun s0 tr s) :
    ∃ t, FRun sigOf s0 ((order tr).map fun c => (.sign c.2.1.2, some c.2.2)) t := by
  obtain ⟨⟨t, h1, h'⟩, _⟩ := C49_linear s0 tr s h
  refine ⟨t, ?_⟩
  clear h h'
  generalize order tr = cs at h1
  induction h1 with
  | nil => exact .nil
  | @call cs a b c l i q r hs hi ha hd ih =>
    have hab : a = b := by
      cases hi with
      | refl => rfl
      | env _ he => exact absurd he id
    subst hab
    rcases filePV_alone q a c l ha with ⟨h2, _⟩ | ⟨h2, h3⟩
    · rw [h2] at hd; cases hd
    · rw [h2] at hd
      cases hd
      have := FRun.snoc ih (.sign q.2)
      rw [List.map_append]
      subst h3
      exact this

/-- A schedule of two overlapping calls. -/
example : ∃ tr s, GRun (M := filePVMachine id) ⟨.empty, ⟨0, 0, 0, none, none, none⟩⟩ tr s ∧ s.lock = none ∧
    (order tr).length = 1 ∧ s.call 1 = .waiting (.signVote, ⟨2, 0, 2, [1], .zero⟩) := by
  refine ⟨_, _, .snoc (.snoc (.snoc (.snoc (.snoc .nil
    (.inv (i := 0) (q := (.signProposal, ⟨1, 0, 1, [9], .zero⟩)) rfl))
    (.inv (i := 1) (q := (.signVote, ⟨2, 0, 2, [1], .zero⟩)) rfl)) (.acq (i := 0) rfl (fun _ => rfl)))
    (.inner (i := 0) rfl ⟨_, rfl, rfl, rfl⟩)) (.rel (i := 0) rfl rfl), rfl, rfl, rfl⟩

end Horcrux
