import Verif.Lemmas.Crash
import Verif.Spec.Shared
/-
Processes that share a home directory, seen as the lives of one process.
-/
namespace Horcrux
open Spec

variable {C : Crypto} {cfg : CosignerCfg}

/-- What the operating system guarantees: who has the lock serves and only they do, who has a port is past listening, and
who does not serve yet has what it loaded and nothing else. -/
structure Shared.WF (s : Shared) : Prop where
  holder : ∀ p, s.lock = some p → ∃ q, s.procs p = some q ∧ q.stage = .serving
  serving : ∀ p q, s.procs p = some q → q.stage = .serving → s.lock = some p
  ports : ∀ p q, s.procs p = some q → q.stage ≠ .loaded → s.port q.host = some p
  early : ∀ p q, s.procs p = some q → q.stage ≠ .serving → q.mem = .start q.file.load ∧ q.jobs = []

theorem wf_init (f : PFile) : (Shared.init f).WF :=
  ⟨fun _ h => by simp [Shared.init] at h, fun _ _ h => by simp [Shared.init] at h, fun _ _ h => by simp [Shared.init] at h,
    fun _ _ h => by simp [Shared.init] at h⟩

theorem setProc_procs (s : Shared) (p i : Nat) (q : HProc) :
    (s.setProc p q).procs i = if i = p then some q else s.procs i := rfl

theorem die_procs (s : Shared) (p i : Nat) : (s.die p).procs i = if i = p then none else s.procs i := rfl

theorem wf_die {s : Shared} (h : s.WF) (p : Nat) : (s.die p).WF := by
  refine ⟨fun i hi => ?_, fun i q hi hq => ?_, fun i q hi hq => ?_, fun i q hi hq => ?_⟩
  · simp only [Shared.die] at hi
    split at hi
    · cases hi
    · next hne =>
      obtain ⟨q, h1, h2⟩ := h.holder i hi
      refine ⟨q, ?_, h2⟩
      rw [die_procs, if_neg, h1]
      rintro rfl; exact hne hi
  all_goals
    rw [die_procs] at hi
    split at hi
  · cases hi
  · next hne =>
    have := h.serving i q hi hq
    simp only [Shared.die]
    rw [if_neg, this]
    rw [this]; simpa using hne
  · cases hi
  · next hne =>
    have := h.ports i q hi hq
    simp only [Shared.die]
    rw [if_neg, this]
    rw [this]; simpa using hne
  · cases hi
  · exact h.early i q hi hq

/-- A change of a serving process that does not touch its stage. -/
theorem wf_set {s : Shared} (h : s.WF) {p : Nat} {q : HProc} (hp : s.procs p = some q) (hs : q.stage = .serving)
    {q' : HProc} (h1 : q'.stage = .serving) (h2 : q'.host = q.host) : (s.setProc p q').WF := by
  refine ⟨fun i hi => ?_, fun i r hi hr => ?_, fun i r hi hr => ?_, fun i r hi hr => ?_⟩
  · obtain ⟨r, e1, e2⟩ := h.holder i hi
    rw [setProc_procs]
    split
    · exact ⟨q', rfl, h1⟩
    · exact ⟨r, e1, e2⟩
  all_goals
    rw [setProc_procs] at hi
    split at hi
  · next he => subst he; exact h.serving _ q hp hs
  · exact h.serving i r hi hr
  · next he =>
    subst he
    simp only [Option.some.injEq] at hi
    subst hi
    rw [h2]
    exact h.ports _ q hp (by rw [hs]; decide)
  · exact h.ports i r hi hr
  · simp only [Option.some.injEq] at hi
    subst hi
    exact absurd h1 hr
  · exact h.early i r hi hr

theorem Shared.WF.file {s : Shared} (h : s.WF) (f : PFile) : ({ s with file := f } : Shared).WF :=
  ⟨h.holder, h.serving, h.ports, h.early⟩

theorem jobs_serving {s : Shared} (h : s.WF) {p : Nat} {q : HProc} (hp : s.procs p = some q) {i : Nat} {j : Job}
    (hj : q.jobs[i]? = some j) : q.stage = .serving := by
  by_cases hs : q.stage = .serving
  · exact hs
  · rw [(h.early p q hp hs).2] at hj; simp at hj

theorem wf_step {s : Shared} (h : s.WF) (e : HEv) : (s.step C cfg e).2.WF := by
  cases e with
  | start p host =>
    simp only [Shared.step]
    split
    · exact h
    · next hp =>
      refine ⟨fun i hi => ?_, fun i r hi hr => ?_, fun i r hi hr => ?_, fun i r hi hr => ?_⟩
      · obtain ⟨r, e1, e2⟩ := h.holder i hi
        refine ⟨r, ?_, e2⟩
        rw [setProc_procs, if_neg, e1]
        rintro rfl; rw [hp] at e1; cases e1
      all_goals
        rw [setProc_procs] at hi
        split at hi
      · simp only [Option.some.injEq] at hi; subst hi; cases hr
      · exact h.serving i r hi hr
      · simp only [Option.some.injEq] at hi; subst hi; exact absurd rfl hr
      · exact h.ports i r hi hr
      · simp only [Option.some.injEq] at hi; subst hi; exact ⟨rfl, rfl⟩
      · exact h.early i r hi hr
  | listen p =>
    simp only [Shared.step]
    split
    · next q hp =>
      split
      · next hl =>
        split
        · next hport =>
          refine ⟨fun i hi => ?_, fun i r hi hr => ?_, fun i r hi hr => ?_, fun i r hi hr => ?_⟩
          · obtain ⟨r, e1, e2⟩ := h.holder i hi
            refine ⟨r, ?_, e2⟩
            show (s.setProc p _).procs i = some r
            rw [setProc_procs, if_neg, e1]
            rintro rfl; rw [hp] at e1; cases e1; rw [hl] at e2; cases e2
          all_goals
            replace hi : (s.setProc p { q with stage := .listening }).procs i = some r := hi
            rw [setProc_procs] at hi
            split at hi
          · simp only [Option.some.injEq] at hi; subst hi; cases hr
          · exact h.serving i r hi hr
          · next he => simp only [Option.some.injEq] at hi; subst hi; subst he; simp
          · have := h.ports i r hi hr
            show (if r.host = q.host then some p else s.port r.host) = some i
            rw [if_neg, this]
            intro hh; rw [hh, hport] at this; cases this
          · simp only [Option.some.injEq] at hi; subst hi
            exact h.early p q hp (by rw [hl]; decide)
          · exact h.early i r hi hr
        · exact wf_die h p
      · exact h
    · exact h
  | openLog p =>
    simp only [Shared.step]
    split
    · next q hp =>
      split
      · next hl =>
        refine ⟨fun i hi => ?_, fun i r hi hr => ?_, fun i r hi hr => ?_, fun i r hi hr => ?_⟩
        · simp only [Option.some.injEq] at hi
          subst hi
          exact ⟨_, by show (s.setProc p _).procs p = _; rw [setProc_procs, if_pos rfl], rfl⟩
        all_goals
          replace hi : (s.setProc p { q with stage := .serving }).procs i = some r := hi
          rw [setProc_procs] at hi
          split at hi
        · next he => subst he; rfl
        · have := h.serving i r hi hr
          rw [hl.2] at this; cases this
        · next he =>
          simp only [Option.some.injEq] at hi; subst hi; subst he
          exact h.ports _ q hp (by rw [hl.1]; decide)
        · exact h.ports i r hi hr
        · simp only [Option.some.injEq] at hi; subst hi; exact absurd rfl hr
        · exact h.early i r hi hr
      · exact h
    · exact h
  | op p o =>
    simp only [Shared.step]
    split
    · next q hp =>
      split
      · next hl =>
        split
        · exact wf_die h p
        · exact wf_set h hp hl hl rfl
        · exact wf_set h hp hl hl rfl
      · exact h
    · exact h
  | marshal p i =>
    simp only [Shared.step]
    split
    · next q hp =>
      split
      · next hj =>
        have hs := jobs_serving h hp hj
        exact wf_set h hp hs hs rfl
      · exact h
    · exact h
  | write p i =>
    simp only [Shared.step]
    split
    · next q hp =>
      split
      · next hj =>
        have hs := jobs_serving h hp hj
        exact (wf_set (q' := { q with jobs := q.jobs.eraseIdx i }) h hp hs hs rfl).file _
      · exact h
    · exact h
  | kill p => exact wf_die h p

theorem wf_run {ok : List (HEv × Option (Out CosResp)) → Shared → HEv → Prop} {f : PFile}
    {tr : List (HEv × Option (Out CosResp))} {s : Shared} (h : HRun C cfg ok (.init f) tr s) : s.WF := by
  induction h with
  | nil => exact wf_init f
  | snoc _ e _ ih => exact wf_step ih e

/-! ### The lives of one process -/

/-- What an event is for the one process: a call or a write of the serving process is one of its own, a takeover is a
restart, and everything else is nothing. -/
def Shared.proj (s : Shared) : HEv → Option DEv
  | .op p o => if s.lock = some p then some (.op o) else none
  | .marshal p i => if s.lock = some p then some (.marshal i) else none
  | .write p i => if s.lock = some p then some (.write i) else none
  | .openLog p =>
    match s.procs p with
    | some q => if q.stage = .listening ∧ s.lock = none then some .restart else none
    | none => none
  | _ => none

/-- The one process: it has the file, and the memory and goroutines of the serving process, if there is one. -/
structure AsOne (s : Shared) (d : DState) : Prop where
  file : d.file = s.file
  serving : ∀ p q, s.procs p = some q → q.stage = .serving → d.mem = q.mem ∧ d.jobs = q.jobs ∧ d.alive = true

theorem asOne_none {s s' : Shared} {d : DState} (h : AsOne s d) (hf : s'.file = s.file)
    (hp : ∀ p q, s'.procs p = some q → q.stage = .serving → s.procs p = some q) : AsOne s' d :=
  ⟨by rw [h.file, hf], fun p q h1 h2 => h.serving p q (hp p q h1 h2) h2⟩

theorem asOne_die {s : Shared} {d : DState} (h : AsOne s d) (p : Nat) : AsOne (s.die p) d := by
  refine asOne_none h rfl fun i q hi _ => ?_
  rw [die_procs] at hi
  split at hi
  · cases hi
  · exact hi

theorem asOne_dead {s : Shared} (h : s.WF) {d : DState} {p : Nat} (hl : s.lock = some p) (hf : d.file = s.file) :
    AsOne (s.die p) d := by
  refine ⟨hf, fun i q hi hq => ?_⟩
  rw [die_procs] at hi
  split at hi
  · cases hi
  · next hne =>
    have := h.serving i q hi hq
    rw [hl] at this
    exact absurd (Option.some.inj this).symm hne

theorem asOne_set {s : Shared} (h : s.WF) {d : DState} {p : Nat} {q : HProc} (hl : s.lock = some p)
    (hf : d.file = s.file) (hd : d.mem = q.mem ∧ d.jobs = q.jobs ∧ d.alive = true) : AsOne (s.setProc p q) d := by
  refine ⟨hf, fun i r hi hr => ?_⟩
  rw [setProc_procs] at hi
  split at hi
  · simp only [Option.some.injEq] at hi; subst hi; exact hd
  · next hne =>
    have := h.serving i r hi hr
    rw [hl] at this
    exact absurd (Option.some.inj this).symm hne

/-- One event of the processes is the event of the one process, with the same answer. -/
theorem asOne_step {s : Shared} (hwf : s.WF) {d : DState} (h : AsOne s d) {e : HEv}
    (hcur : ∀ p q, e = .openLog p → s.lock = none → s.procs p = some q → q.file = s.file) :
    match s.proj e with
    | none => (s.step C cfg e).1 = none ∧ AsOne (s.step C cfg e).2 d
    | some e' => (s.step C cfg e).1 = (d.step C cfg e').1 ∧ AsOne (s.step C cfg e).2 (d.step C cfg e').2 := by
  have early : ∀ p, s.lock ≠ some p → ∀ q, s.procs p = some q → q.stage ≠ .serving ∧ q.jobs = [] := by
    intro p hl q hp
    have hs : q.stage ≠ .serving := fun hs => hl (hwf.serving p q hp hs)
    exact ⟨hs, (hwf.early p q hp hs).2⟩
  cases e with
  | start p host =>
    simp only [Shared.proj, Shared.step]
    split
    · exact ⟨rfl, h⟩
    · refine ⟨rfl, asOne_none h rfl fun i q hi hq => ?_⟩
      rw [setProc_procs] at hi
      split at hi
      · simp only [Option.some.injEq] at hi; subst hi; cases hq
      · exact hi
  | listen p =>
    simp only [Shared.proj, Shared.step]
    split
    · split
      · split
        · refine ⟨rfl, asOne_none h rfl fun i q hi hq => ?_⟩
          replace hi : (s.setProc p _).procs i = some q := hi
          rw [setProc_procs] at hi
          split at hi
          · simp only [Option.some.injEq] at hi; subst hi; cases hq
          · exact hi
        · exact ⟨rfl, asOne_die h p⟩
      · exact ⟨rfl, h⟩
    · exact ⟨rfl, h⟩
  | openLog p =>
    simp only [Shared.proj, Shared.step]
    cases hp : s.procs p with
    | none => exact ⟨rfl, h⟩
    | some q =>
      by_cases hl : q.stage = .listening ∧ s.lock = none
      · simp only [hl, and_self, if_true, DState.step]
        refine ⟨trivial, ⟨h.file, fun i r hi hr => ?_⟩⟩
        replace hi : (s.setProc p { q with stage := .serving }).procs i = some r := hi
        rw [setProc_procs] at hi
        split at hi
        · simp only [Option.some.injEq] at hi; subst hi
          have e := hwf.early p q hp (by rw [hl.1]; decide)
          refine ⟨?_, e.2.symm, rfl⟩
          show CState.start d.file.load = q.mem
          rw [e.1, hcur p q rfl hl.2 hp, h.file]
        · have := hwf.serving i r hi hr
          rw [hl.2] at this; cases this
      · simp only [if_neg hl]
        exact ⟨trivial, h⟩
  | op p o =>
    simp only [Shared.proj, Shared.step]
    by_cases hl : s.lock = some p
    · obtain ⟨q, hp, hs⟩ := hwf.holder p hl
      obtain ⟨e1, e2, e3⟩ := h.serving p q hp hs
      simp only [hl, if_true, hp, hs, DState.step, e3, Bool.true_eq_false, if_false]
      rw [e1, e2]
      generalize q.mem.step C cfg o = x
      obtain ⟨a, m⟩ := x
      cases a with
      | panic => exact ⟨rfl, asOne_dead hwf hl h.file⟩
      | ok a => exact ⟨rfl, asOne_set hwf hl h.file ⟨rfl, rfl, rfl⟩⟩
      | err a => exact ⟨rfl, asOne_set hwf hl h.file ⟨rfl, rfl, rfl⟩⟩
    · simp only [if_neg hl]
      cases hp : s.procs p with
      | some q =>
        simp only [if_neg (early p hl q hp).1]
        exact ⟨trivial, h⟩
      | none => exact ⟨rfl, h⟩
  | marshal p i =>
    simp only [Shared.proj, Shared.step]
    by_cases hl : s.lock = some p
    · obtain ⟨q, hp, hs⟩ := hwf.holder p hl
      obtain ⟨e1, e2, e3⟩ := h.serving p q hp hs
      simp only [hl, if_true, hp, DState.step, e2]
      cases hj : q.jobs[i]? with
      | none => exact ⟨rfl, h⟩
      | some j =>
        cases j with
        | started => rw [e1]; exact ⟨rfl, asOne_set hwf hl h.file ⟨rfl, rfl, e3⟩⟩
        | marshalled f => exact ⟨rfl, h⟩
    · simp only [if_neg hl]
      cases hp : s.procs p with
      | some q =>
        simp only [(early p hl q hp).2]
        exact ⟨rfl, h⟩
      | none => exact ⟨rfl, h⟩
  | write p i =>
    simp only [Shared.proj, Shared.step]
    by_cases hl : s.lock = some p
    · obtain ⟨q, hp, hs⟩ := hwf.holder p hl
      obtain ⟨e1, e2, e3⟩ := h.serving p q hp hs
      simp only [hl, if_true, hp, DState.step, e2]
      cases hj : q.jobs[i]? with
      | none => exact ⟨rfl, h⟩
      | some j =>
        cases j with
        | started => exact ⟨rfl, h⟩
        | marshalled f =>
          have := asOne_set (q := { q with jobs := q.jobs.eraseIdx i }) (hwf.file f) hl
            (d := { d with file := f, jobs := q.jobs.eraseIdx i }) rfl ⟨e1, rfl, e3⟩
          exact ⟨rfl, this⟩
    · simp only [if_neg hl]
      cases hp : s.procs p with
      | some q =>
        simp only [(early p hl q hp).2]
        exact ⟨rfl, h⟩
      | none => exact ⟨rfl, h⟩
  | kill p =>
    simp only [Shared.proj, Shared.step]
    exact ⟨trivial, asOne_die h p⟩

/-- A release is by the process that has the lock. -/
theorem released_proj {s : Shared} (hwf : s.WF) {p : Nat} {o : CosOp} {a : Out CosResp}
    (h : (s.step C cfg (.op p o)).1 = some a) : s.lock = some p := by
  simp only [Shared.step] at h
  split at h
  · next q hp =>
    split at h
    · next hs => exact hwf.serving p q hp hs
    · cases h
  · cases h

theorem releasedBy_snoc {tr : List (HEv × Option (Out CosResp))} {e : HEv} {a : Option (Out CosResp)} {p : Nat}
    {bs : Bytes} {r : SignRes} (h : ReleasedBy (tr ++ [(e, a)]) p bs r) :
    ReleasedBy tr p bs r ∨ (e = .op p (.sign bs) ∧ a = some (.ok (.signed r))) := by
  rcases mem_snoc h with h | h
  · exact .inl h
  · simp only [Prod.mk.injEq] at h; exact .inr ⟨h.1.symm, h.2.symm⟩

theorem proj_op {s : Shared} {e : HEv} {o : CosOp} (h : s.proj e = some (.op o)) :
    ∃ p, e = .op p o ∧ s.lock = some p := by
  cases e <;> simp only [Shared.proj] at h
  case op p o' =>
    split at h
    · next hl => simp only [Option.some.injEq, DEv.op.injEq] at h; subst h; exact ⟨p, rfl, hl⟩
    · cases h
  all_goals (repeat' split at h) <;> cases h

theorem proj_restart {s : Shared} {e : HEv} (h : s.proj e = some .restart) :
    ∃ p q, e = .openLog p ∧ s.procs p = some q ∧ q.stage = .listening ∧ s.lock = none := by
  cases e <;> simp only [Shared.proj] at h
  case openLog p =>
    split at h
    · next q hp =>
      split at h
      · next hl => exact ⟨p, q, rfl, hp, hl⟩
      · cases h
    · cases h
  all_goals (repeat' split at h) <;> cases h

theorem proj_write {s : Shared} {e : HEv} {i : Nat} (h : s.proj e = some (.write i)) :
    ∃ p, e = .write p i ∧ s.lock = some p := by
  cases e <;> simp only [Shared.proj] at h
  case write p i' =>
    split at h
    · next hl => simp only [Option.some.injEq, DEv.write.injEq] at h; subst h; exact ⟨p, rfl, hl⟩
    · cases h
  all_goals (repeat' split at h) <;> cases h

theorem proj_marshal {s : Shared} {e : HEv} {i : Nat} (h : s.proj e = some (.marshal i)) :
    ∃ p, e = .marshal p i ∧ s.lock = some p := by
  cases e <;> simp only [Shared.proj] at h
  case marshal p i' =>
    split at h
    · next hl => simp only [Option.some.injEq, DEv.marshal.injEq] at h; subst h; exact ⟨p, rfl, hl⟩
    · cases h
  all_goals (repeat' split at h) <;> cases h

/-- One more event, with what was released. -/
theorem asOne_snoc {s : Shared} (hwf : s.WF) {d : DState} (ha : AsOne s d) {e : HEv}
    (hcur : ∀ p q, e = .openLog p → s.lock = none → s.procs p = some q → q.file = s.file)
    {tr : List (HEv × Option (Out CosResp))} {dtr : List (DEv × Option (Out CosResp))}
    (hrel : ∀ bs r, DReleased dtr bs r ↔ ∃ p, ReleasedBy tr p bs r) :
    (match s.proj e with
    | none => AsOne (s.step C cfg e).2 d
    | some e' => AsOne (s.step C cfg e).2 (d.step C cfg e').2) ∧
    (match s.proj e with
    | none => ∀ bs r, DReleased dtr bs r ↔ ∃ p, ReleasedBy (tr ++ [(e, (s.step C cfg e).1)]) p bs r
    | some e' => ∀ bs r, DReleased (dtr ++ [(e', (d.step C cfg e').1)]) bs r ↔
        ∃ p, ReleasedBy (tr ++ [(e, (s.step C cfg e).1)]) p bs r) := by
  have h1 := asOne_step (C := C) (cfg := cfg) hwf ha hcur
  cases hp : s.proj e with
  | none =>
    rw [hp] at h1
    refine ⟨h1.2, fun bs r => ?_⟩
    rw [hrel]
    constructor
    · rintro ⟨p, hr⟩; exact ⟨p, List.mem_append_left _ hr⟩
    · rintro ⟨p, hr⟩
      rcases releasedBy_snoc hr with hr | ⟨_, hr⟩
      · exact ⟨p, hr⟩
      · rw [h1.1] at hr; cases hr
  | some e' =>
    rw [hp] at h1
    refine ⟨h1.2, fun bs r => ?_⟩
    constructor
    · intro hr
      rcases dreleased_snoc hr with hr | ⟨hr, hr'⟩
      · obtain ⟨p, hr⟩ := (hrel bs r).1 hr
        exact ⟨p, List.mem_append_left _ hr⟩
      · subst hr
        obtain ⟨p, rfl, _⟩ := proj_op hp
        exact ⟨p, by unfold ReleasedBy; rw [h1.1, hr']; simp⟩
    · rintro ⟨p, hr⟩
      rcases releasedBy_snoc hr with hr | ⟨rfl, hr⟩
      · exact List.mem_append_left _ ((hrel bs r).2 ⟨p, hr⟩)
      · have hl := released_proj hwf hr
        have : e' = .op (.sign bs) := by simp only [Shared.proj, hl, if_true, Option.some.injEq] at hp; exact hp.symm
        subst this
        unfold DReleased
        rw [← h1.1, hr]; simp

/-- The processes, if everyone who takes over has what is in the file, are the lives of one process; `ok'` holds of its
events if it does at every step. -/
theorem asOne_run {ok : List (HEv × Option (Out CosResp)) → Shared → HEv → Prop} {ok' : DState → DEv → Prop}
    {K : Shared → DState → Prop} {f : PFile} {tr : List (HEv × Option (Out CosResp))} {s : Shared}
    (hcur : ∀ tr s e, HRun C cfg ok (.init f) tr s → ok tr s e →
      ∀ p q, e = .openLog p → s.lock = none → s.procs p = some q → q.file = s.file)
    (hK0 : K (.init f) (.boot f))
    (hK : ∀ tr s e d, s.WF → AsOne s d → K s d → ok tr s e →
      match s.proj e with
      | none => K (s.step C cfg e).2 d
      | some e' => ok' d e' ∧ K (s.step C cfg e).2 (d.step C cfg e').2)
    (h : HRun C cfg ok (.init f) tr s) :
    ∃ dtr d, DRun C cfg ok' (DState.boot f) dtr d ∧ AsOne s d ∧ K s d ∧
      ∀ bs r, DReleased dtr bs r ↔ ∃ p, ReleasedBy tr p bs r := by
  induction h with
  | nil =>
    refine ⟨[], _, .nil, ⟨rfl, fun _ _ h => by simp [Shared.init] at h⟩, hK0, fun bs r => ⟨(fun h => by cases h), ?_⟩⟩
    rintro ⟨p, h⟩; cases h
  | @snoc tr s h e he ih =>
    obtain ⟨dtr, d, hd, ha, hk, hrel⟩ := ih
    have hwf := wf_run h
    obtain ⟨h1, h3⟩ := asOne_snoc (C := C) (cfg := cfg) hwf ha (hcur tr s e h he) hrel
    have h2 := hK tr s e d hwf ha hk he
    cases hp : s.proj e with
    | none =>
      rw [hp] at h1 h2 h3
      exact ⟨dtr, d, hd, h1, h2, h3⟩
    | some e' =>
      rw [hp] at h1 h2 h3
      exact ⟨_, _, hd.snoc e' h2.1, h1, h2.2, h3⟩

end Horcrux
