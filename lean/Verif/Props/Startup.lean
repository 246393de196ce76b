import Verif.Model.Startup
/-
Property C57: the start of a cosigner node.
-/
namespace Horcrux

variable {V : Type}

theorem startup_run_append (conf : V) (s : Startup V) (es es' : List SEv) :
    s.run conf (es ++ es') =
      ((s.run conf es).1 ++ ((s.run conf es).2.run conf es').1, ((s.run conf es).2.run conf es').2) := by
  induction es generalizing s with
  | nil => rfl
  | cons e es ih => simp only [List.cons_append, Startup.run, ih]

/-- C57 does not hold: if the goroutine of the raft store gets as far as making the gRPC server before the main goroutine
sets the validator, then the node starts, but the first `SignBlock` call over gRPC panics, however long after the start
it comes. -/
theorem C57_grpc_fails (conf : V) (waiting : List SEv) (hw : ∀ e ∈ waiting, e = .main ∨ e = .init ∨ e = .node) :
    let r := Startup.run conf .zero
      ([.main, .init, .init, .main, .main, .main, .init] ++ waiting ++ [.signBlock])
    (r.1.map (·.2)).getLast? = some (.used none) ∧ r.2.crashed = true ∧ r.2.validator = some conf ∧
      r.2.main = .running := by
  have h1 : (Startup.run conf .zero [.main, .init, .init, .main, .main, .main, .init]).2 =
      (⟨.running, .serving, some conf, some conf, some none, false⟩ : Startup V) := rfl
  have h2 : ∀ es : List SEv, (∀ e ∈ es, e = .main ∨ e = .init ∨ e = .node) →
      (Startup.run conf (⟨.running, .serving, some conf, some conf, some none, false⟩ : Startup V) es).2 =
        ⟨.running, .serving, some conf, some conf, some none, false⟩ := by
    intro es hes
    induction es with
    | nil => rfl
    | cons e es ih =>
      have := ih (fun x hx => hes x (List.mem_cons_of_mem _ hx))
      rcases hes e (List.mem_cons_self ..) with rfl | rfl | rfl
      · simpa [Startup.run, Startup.step] using this
      · simpa [Startup.run, Startup.step] using this
      · simpa [Startup.run, Startup.step, Startup.use] using this
  intro r
  have hr : r = Startup.run conf .zero
      ([.main, .init, .init, .main, .main, .main, .init] ++ waiting ++ [.signBlock]) := rfl
  rw [startup_run_append, startup_run_append, h1, h2 waiting hw] at hr
  rw [hr]
  refine ⟨?_, rfl, rfl, rfl⟩
  rw [List.map_append, List.getLast?_append]
  rfl

/-- C57 does not hold: an event that raft applies before the validator is set panics. -/
theorem C57_event_fails (conf : V) :
    (Startup.run conf .zero [.main, .init, .lss]).2.crashed = true ∧
      ((Startup.run conf .zero [.main, .init, .lss]).1.map (·.2)).getLast? = some (.used none) := by
  simp [Startup.run, Startup.step, Startup.use, Startup.zero]

/-- The local variable and the field, by the main goroutine's position. -/
def valAt (conf : V) : MainPC → Option V
  | .start => none
  | .newValidator => none
  | _ => some conf

def fieldAt (conf : V) : MainPC → Option V
  | .startSigners => some conf
  | .running => some conf
  | _ => none

/-- What the schedule so far says of the state. -/
structure SInv (conf : V) (s : Startup V) : Prop where
  val : s.val = valAt conf s.main
  validator : s.validator = fieldAt conf s.main
  captured : s.captured = none ∨ s.captured = some none ∨ s.captured = some (some conf)
  started : s.main = .start ↔ s.init = .absent
  serving : s.init = .serving ∨ s.init = .serve ↔ s.captured ≠ none

theorem sinv_step {conf : V} {s : Startup V} (h : SInv conf s) (e : SEv) : SInv conf (s.step conf e).2 := by
  obtain ⟨m, i, vl, vd, cp, cr⟩ := s
  obtain ⟨h1, h2, h3, h4, h5⟩ := h
  simp only at h1 h2 h3 h4 h5
  subst h1 h2
  cases cr with
  | true => exact ⟨rfl, rfl, h3, h4, h5⟩
  | false =>
    cases e with
    | main =>
      cases m
      · have := h4.1 rfl
        subst this
        simp only [Startup.step]
        refine ⟨rfl, rfl, h3, by simp, ?_⟩
        simpa using h5
      all_goals
        simp only [Startup.step]
        refine ⟨rfl, rfl, h3, by simpa using h4, h5⟩
    | init =>
      cases i
      · exact ⟨rfl, rfl, h3, h4, h5⟩
      · refine ⟨rfl, rfl, h3, ?_, ?_⟩
        · simpa [Startup.step] using h4
        · simpa [Startup.step] using h5
      · simp only [Startup.step]
        refine ⟨rfl, rfl, ?_, ?_, by simp⟩
        · cases m
          · exact .inr (.inl rfl)
          · exact .inr (.inl rfl)
          · exact .inr (.inl rfl)
          · exact .inr (.inr rfl)
          · exact .inr (.inr rfl)
        · simpa [Startup.step] using h4
      · refine ⟨rfl, rfl, h3, ?_, ?_⟩
        · simpa [Startup.step] using h4
        · simpa [Startup.step] using h5
      · exact ⟨rfl, rfl, h3, h4, h5⟩
    | lss =>
      have hu : ∀ v : Option V, SInv conf (Startup.use (⟨m, i, valAt conf m, fieldAt conf m, cp, false⟩ : Startup V) v).2 := by
        intro v
        cases v <;> exact ⟨rfl, rfl, h3, h4, h5⟩
      simp only [Startup.step]
      cases i
      · exact ⟨rfl, rfl, h3, h4, h5⟩
      · exact ⟨rfl, rfl, h3, h4, h5⟩
      all_goals exact hu _
    | signBlock =>
      have hu : ∀ v : Option V, SInv conf (Startup.use (⟨m, i, valAt conf m, fieldAt conf m, cp, false⟩ : Startup V) v).2 := by
        intro v
        cases v <;> exact ⟨rfl, rfl, h3, h4, h5⟩
      simp only [Startup.step]
      cases i
      case serving =>
        cases cp with
        | none => exact ⟨rfl, rfl, h3, h4, h5⟩
        | some v => exact hu v
      all_goals exact ⟨rfl, rfl, h3, h4, h5⟩
    | node =>
      have hu : ∀ v : Option V, SInv conf (Startup.use (⟨m, i, valAt conf m, fieldAt conf m, cp, false⟩ : Startup V) v).2 := by
        intro v
        cases v <;> exact ⟨rfl, rfl, h3, h4, h5⟩
      simp only [Startup.step]
      cases m
      case running => exact hu _
      all_goals exact ⟨rfl, rfl, h3, h4, h5⟩

theorem sinv_run {conf : V} {s : Startup V} (h : SInv conf s) (es : List SEv) : SInv conf (s.run conf es).2 := by
  induction es generalizing s with
  | nil => exact h
  | cons e es ih => exact ih (sinv_step h e)

theorem sinv_zero (conf : V) : SInv conf (Startup.zero : Startup V) :=
  ⟨rfl, rfl, .inl rfl, by simp [Startup.zero], by simp [Startup.zero]⟩

/-- The validator has been set. -/
def Startup.isSet (s : Startup V) : Prop := s.main = .startSigners ∨ s.main = .running

theorem isSet_step {conf : V} {s : Startup V} (e : SEv) (h : s.isSet) : (s.step conf e).2.isSet := by
  obtain ⟨m, i, vl, vd, cp, cr⟩ := s
  have hu : ∀ v : Option V, (Startup.use (⟨m, i, vl, vd, cp, cr⟩ : Startup V) v).2.isSet := by
    intro v; cases v <;> exact h
  unfold Startup.step
  split
  · exact h
  · cases e with
    | main =>
      rcases h with h | h
      · simp only at h; subst h; exact .inr rfl
      · simp only at h; subst h; exact .inr rfl
    | init => cases i <;> exact h
    | lss => cases i <;> first | exact h | exact hu _
    | signBlock =>
      dsimp only
      split
      · exact hu _
      · exact h
    | node =>
      dsimp only
      split
      · exact hu _
      · exact h

/-- The state that a good start leads to: the validator set, and not missing in the gRPC server. -/
def Startup.good (conf : V) (s : Startup V) : Prop :=
  SInv conf s ∧ s.isSet ∧ s.captured ≠ some none ∧ s.crashed = false

theorem good_step {conf : V} {s : Startup V} (h : s.good conf) (e : SEv) :
    (s.step conf e).2.good conf ∧ ((s.step conf e).1 = .quiet ∨ (s.step conf e).1 = .used (some conf)) := by
  obtain ⟨hi, hs, hc, hcr⟩ := h
  have hi' := sinv_step hi e
  have hs' := isSet_step (conf := conf) e hs
  have hv : s.validator = some conf := by rcases hs with h | h <;> rw [hi.validator, h] <;> rfl
  have hl : s.val = some conf := by rcases hs with h | h <;> rw [hi.val, h] <;> rfl
  have hcap : ∀ v, s.captured = some v → v = some conf := by
    intro v h
    rcases hi.captured with h1 | h1 | h1
    · rw [h1] at h; cases h
    · exact absurd h1 hc
    · rw [h1] at h; cases h; rfl
  suffices hh : (s.step conf e).2.captured ≠ some none ∧ (s.step conf e).2.crashed = false ∧
      ((s.step conf e).1 = .quiet ∨ (s.step conf e).1 = .used (some conf)) by
    exact ⟨⟨hi', hs', hh.1, hh.2.1⟩, hh.2.2⟩
  clear hi' hs'
  obtain ⟨m, i, vl, vd, cp, cr⟩ := s
  simp only at hv hl hc hcr hcap
  subst hv hl hcr
  cases e with
  | main => cases m <;> exact ⟨hc, rfl, .inl rfl⟩
  | init =>
    cases i
    case register => exact ⟨by simp [Startup.step], rfl, .inl rfl⟩
    all_goals exact ⟨hc, rfl, .inl rfl⟩
  | lss => cases i <;> first | exact ⟨hc, rfl, .inl rfl⟩ | exact ⟨hc, rfl, .inr rfl⟩
  | signBlock =>
    cases i
    case serving =>
      cases cp with
      | none => exact ⟨hc, rfl, .inl rfl⟩
      | some v =>
        have := hcap v rfl
        subst this
        exact ⟨hc, rfl, .inr rfl⟩
    all_goals exact ⟨hc, rfl, .inl rfl⟩
  | node => cases m <;> first | exact ⟨hc, rfl, .inl rfl⟩ | exact ⟨hc, rfl, .inr rfl⟩

theorem good_run {conf : V} {s : Startup V} (h : s.good conf) (es : List SEv) :
    (s.run conf es).2.good conf ∧ ∀ x ∈ (s.run conf es).1, x.2 = .quiet ∨ x.2 = .used (some conf) := by
  induction es generalizing s with
  | nil => exact ⟨h, by simp [Startup.run]⟩
  | cons e es ih =>
    obtain ⟨h1, h2⟩ := good_step h e
    obtain ⟨h3, h4⟩ := ih h1
    refine ⟨h3, ?_⟩
    intro x hx
    simp only [Startup.run, List.mem_cons] at hx
    rcases hx with rfl | hx
    · exact h2
    · exact h4 x hx

/-- What does hold of C57: in every schedule, if the validator is set at a point where the gRPC server has not yet been
made without it (and no event was applied before), then from there on every event, every `SignBlock` call over gRPC and
every chain node's request sees the configured validator. Missing: the other schedules. -/
theorem C57_partial (conf : V) (before after : List SEv)
    (hset : (Startup.run conf .zero before).2.isSet)
    (hcap : (Startup.run conf .zero before).2.captured ≠ some none)
    (hcr : (Startup.run conf .zero before).2.crashed = false) :
    ∀ x ∈ ((Startup.run conf .zero before).2.run conf after).1, x.2 = .quiet ∨ x.2 = .used (some conf) :=
  (good_run ⟨sinv_run (sinv_zero conf) before, hset, hcap, hcr⟩ after).2

/-- C57, exactly: at a point of a schedule where nothing has panicked yet, all that can happen from there on sees the configured
validator just if it has been set and the gRPC server has not been made before. As long as it is not set there is always a
continuation that panics. -/
theorem C57_exact (conf : V) (before : List SEv) (hcr : (Startup.run conf .zero before).2.crashed = false) :
    (∀ after, ∀ x ∈ ((Startup.run conf .zero before).2.run conf after).1, x.2 = .quiet ∨ x.2 = .used (some conf)) ↔
      (Startup.run conf .zero before).2.isSet ∧ (Startup.run conf .zero before).2.captured ≠ some none := by
  constructor
  · intro hall
    have hi := sinv_run (sinv_zero conf) before
    generalize (Startup.run conf .zero before).2 = s at *
    obtain ⟨m, i, vl, vd, cp, cr⟩ := s
    obtain ⟨h1, h2, h3, h4, h5⟩ := hi
    simp only at h1 h2 h3 h4 h5 hcr
    subst h1 h2 hcr
    have hset : m = .startSigners ∨ m = .running := by
      cases m
      · have := h4.1 rfl
        subst this
        simpa [Startup.run, Startup.step, Startup.use, fieldAt] using hall [.main, .init, .lss]
      · cases i
        · exact absurd (h4.2 rfl) (by simp)
        all_goals simpa [Startup.run, Startup.step, Startup.use, fieldAt] using hall [.init, .lss]
      · cases i
        · exact absurd (h4.2 rfl) (by simp)
        all_goals simpa [Startup.run, Startup.step, Startup.use, fieldAt] using hall [.init, .lss]
      · exact .inl rfl
      · exact .inr rfl
    refine ⟨hset, fun hc => ?_⟩
    simp only at hc
    subst hc
    rcases h5.2 (by simp) with rfl | rfl
    all_goals simpa [Startup.run, Startup.step, Startup.use] using hall [.init, .signBlock]
  · rintro ⟨h1, h2⟩ after
    exact C57_partial conf before after h1 h2 hcr

/-- In every schedule whatever, only the configured validator or a missing one is used; and chain nodes' requests always
see the configured one. -/
theorem C57_only (conf : V) (es : List SEv) :
    ∀ x ∈ (Startup.run conf .zero es).1, (x.2 = .quiet ∨ x.2 = .used none ∨ x.2 = .used (some conf)) ∧
      (x.1 = .node → x.2 = .quiet ∨ x.2 = .used (some conf)) := by
  have gen : ∀ (es : List SEv) (s : Startup V), SInv conf s → ∀ x ∈ (s.run conf es).1,
      (x.2 = .quiet ∨ x.2 = .used none ∨ x.2 = .used (some conf)) ∧
      (x.1 = .node → x.2 = .quiet ∨ x.2 = .used (some conf)) := by
    intro es
    induction es with
    | nil => intro s _ x hx; simp [Startup.run] at hx
    | cons e es ih =>
      intro s hs x hx
      simp only [Startup.run, List.mem_cons] at hx
      rcases hx with rfl | hx
      · obtain ⟨m, i, vl, vd, cp, cr⟩ := s
        obtain ⟨h1, h2, h3, h4, h5⟩ := hs
        simp only at h1 h2 h3 h4 h5
        subst h1 h2
        cases cr with
        | true => simp [Startup.step]
        | false =>
          cases e with
          | main => cases m <;> simp [Startup.step]
          | init => cases i <;> simp [Startup.step]
          | lss => cases i <;> cases m <;> simp [Startup.step, Startup.use, fieldAt]
          | signBlock =>
            cases i
            case serving => rcases h3 with rfl | rfl | rfl <;> simp [Startup.step, Startup.use]
            all_goals simp [Startup.step]
          | node => cases m <;> simp [Startup.step, Startup.use, valAt]
      · exact ih _ (sinv_step hs e) x hx
  exact gen es _ (sinv_zero conf)

/-- The schedule in which the main goroutine is faster, and one in which raft is opened first. -/
example :
    let s := (Startup.run 5 .zero [.main, .main, .init, .main]).2
    s.isSet ∧ s.captured ≠ some none ∧ s.crashed = false ∧
      (s.run 5 [.init, .main, .init, .lss, .signBlock, .node]).1.map (·.2) =
        [.quiet, .quiet, .quiet, .used (some 5), .used (some 5), .used (some 5)] :=
  ⟨.inl rfl, by decide, rfl, rfl⟩

end Horcrux
