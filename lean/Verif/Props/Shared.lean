import Verif.Lemmas.Shared
import Verif.Props.Crash
/-
Property C95: cosigner processes that share a home directory.
-/
namespace Horcrux
open Spec

/-- Any event. -/
def anyEvent (_ : List (HEv × Option (Out CosResp))) (_ : Shared) (_ : HEv) : Prop := True

/-- C95: of the processes with one home directory, on whichever hosts and however started and killed, at most one serves
calls at any time, and at most one per host listens; every answer to a call is from the one that serves. -/
theorem C95_one (C : Crypto) (cfg : CosignerCfg) (f : PFile) (tr : List (HEv × Option (Out CosResp))) (s : Shared)
    (h : HRun C cfg anyEvent (.init f) tr s) :
    (∀ p p' q q', s.procs p = some q → s.procs p' = some q' → q.stage = .serving → q'.stage = .serving → p = p') ∧
    (∀ p p' q q', s.procs p = some q → s.procs p' = some q' → q.stage ≠ .loaded → q'.stage ≠ .loaded →
      q.host = q'.host → p = p') ∧
    (∀ p o a, (s.step C cfg (.op p o)).1 = some a → ∃ q, s.procs p = some q ∧ q.stage = .serving) := by
  have hwf := wf_run h
  refine ⟨fun p p' q q' h1 h2 h3 h4 => ?_, fun p p' q q' h1 h2 h3 h4 h5 => ?_, fun p o a ha => ?_⟩
  · exact Option.some.inj ((hwf.serving p q h1 h3).symm.trans (hwf.serving p' q' h2 h4))
  · have := hwf.ports p q h1 h3
    rw [h5] at this
    exact Option.some.inj (this.symm.trans (hwf.ports p' q' h2 h4))
  · exact hwf.holder p (released_proj hwf ha)

/-- C95, partial: any number of processes, on any hosts, with any requests and any scheduling of their writes. If every
process that gets to serve calls loaded what is still in the state file then, and the watermark in it is not below
anything released, then two share signatures for one height, round and step, by whichever processes, are over sign bytes
that differ in nothing but the time. Missing: processes that loaded the file earlier; then it is false (`C95_fails`). -/
theorem C95_partial (C : Crypto) (cfg : CosignerCfg) (f : PFile) (tr : List (HEv × Option (Out CosResp))) (s : Shared)
    (hrun : HRun C cfg TakesOverCurrent (.init f) tr s)
    (p p' : Nat) (bs bs' : Bytes) (r r' : SignRes) (k k' : HRST)
    (h : ReleasedBy tr p bs r) (h' : ReleasedBy tr p' bs' r')
    (hu : unpackHRST bs = .ok k) (hu' : unpackHRST bs' = .ok k')
    (hsame : k.height = k'.height ∧ k.round = k'.round ∧ k.step = k'.step) :
    DifferOnlyByTime k.step bs bs' := by
  obtain ⟨dtr, d, hd, hc, _, hrel⟩ : ∃ dtr d, DRun C cfg anything (DState.boot f) dtr d ∧
      CrashesCovered C cfg (DState.boot f) dtr ∧ AsOne s d ∧ ∀ bs r, DReleased dtr bs r ↔ ∃ p, ReleasedBy tr p bs r := by
    clear h h'
    induction hrun with
    | nil =>
      refine ⟨[], _, .nil, (by intro tr1 a tr2 s1 h; simp at h), ⟨rfl, fun _ _ h => by simp [Shared.init] at h⟩,
        fun bs r => ⟨(fun h => by cases h), ?_⟩⟩
      rintro ⟨p, h⟩; cases h
    | @snoc tr s h e he ih =>
      obtain ⟨dtr, d, hd, hc, ha, hrel⟩ := ih
      obtain ⟨h1, h2⟩ := asOne_snoc (C := C) (cfg := cfg) (wf_run h) ha (fun p q a b c => (he p q a b c).1) hrel
      cases hp : s.proj e with
      | none =>
        rw [hp] at h1 h2
        exact ⟨dtr, d, hd, hc, h1, h2⟩
      | some e' =>
        rw [hp] at h1 h2
        refine ⟨_, _, hd.snoc e' trivial, covered_snoc (drun_anything hd) hc ?_, h1, h2⟩
        rintro rfl bs r k hr hu
        obtain ⟨p, q, rfl, hq, _, hl⟩ := proj_restart hp
        obtain ⟨h3, h4⟩ := he p q rfl hl hq
        obtain ⟨p', hr⟩ := (hrel bs r).1 hr
        rw [ha.file, ← h3]
        exact h4 p' bs r k hr hu
  exact C36_covered_partial C cfg f d dtr hd hc bs bs' r r' k k' ((hrel bs r).2 ⟨p, h⟩) ((hrel bs' r').2 ⟨p', h'⟩) hu hu'
    hsame

/-- Processes started only while there is none have loaded what is in the file, and what they do not serve yet is
theirs alone. -/
theorem alone_inv {C : Crypto} {cfg : CosignerCfg} {f : PFile} {tr : List (HEv × Option (Out CosResp))} {s : Shared}
    (h : HRun C cfg (fun _ s e => OneAfterTheOther C cfg s e) (.init f) tr s) :
    (∀ p p' q q', s.procs p = some q → s.procs p' = some q' → p = p') ∧
    (∀ p q, s.procs p = some q → q.stage ≠ .serving → q.file = s.file) := by
  induction h with
  | nil => exact ⟨fun _ _ _ _ h => by simp [Shared.init] at h, fun _ _ h => by simp [Shared.init] at h⟩
  | @snoc tr s h e he ih =>
    obtain ⟨ih1, ih2⟩ := ih
    have hwf := wf_run h
    have die : ∀ p, (∀ i i' q q', (s.die p).procs i = some q → (s.die p).procs i' = some q' → i = i') ∧
        (∀ i q, (s.die p).procs i = some q → q.stage ≠ .serving → q.file = (s.die p).file) := by
      intro p
      have hd : ∀ i q, (s.die p).procs i = some q → s.procs i = some q := by
        intro i q hi
        rw [die_procs] at hi
        split at hi
        · cases hi
        · exact hi
      exact ⟨fun i i' q q' a b => ih1 i i' q q' (hd i q a) (hd i' q' b), fun i q a b => ih2 i q (hd i q a) b⟩
    have set : ∀ p q q', s.procs p = some q → (q'.stage ≠ .serving → q'.file = q.file ∧ q.stage ≠ .serving) →
        (∀ i i' q1 q2, (s.setProc p q').procs i = some q1 → (s.setProc p q').procs i' = some q2 → i = i') ∧
        (∀ i q1, (s.setProc p q').procs i = some q1 → q1.stage ≠ .serving → q1.file = s.file) := by
      intro p q q' hp hq
      have hs : ∀ i q1, (s.setProc p q').procs i = some q1 → ∃ q2, s.procs i = some q2 := by
        intro i q1 hi
        rw [setProc_procs] at hi
        split at hi
        · next hh => subst hh; exact ⟨q, hp⟩
        · exact ⟨q1, hi⟩
      refine ⟨fun i i' q1 q2 a b => ?_, fun i q1 a b => ?_⟩
      · obtain ⟨r1, a⟩ := hs i q1 a
        obtain ⟨r2, b⟩ := hs i' q2 b
        exact ih1 i i' r1 r2 a b
      · rw [setProc_procs] at a
        split at a
        · simp only [Option.some.injEq] at a; subst a
          obtain ⟨c, c'⟩ := hq b
          rw [c]; exact ih2 p q hp c'
        · exact ih2 i q1 a b
    cases e with
    | start p host =>
      simp only [Shared.step]
      split
      · exact ⟨ih1, ih2⟩
      · have hno : ∀ i, s.procs i = none := he
        refine ⟨fun i i' q1 q2 a b => ?_, fun i q1 a b => ?_⟩
        · rw [setProc_procs] at a b
          split at a
          · next h1 =>
            split at b
            · next h2 => rw [h1, h2]
            · rw [hno] at b; cases b
          · rw [hno] at a; cases a
        · rw [setProc_procs] at a
          split at a
          · simp only [Option.some.injEq] at a; subst a; rfl
          · rw [hno] at a; cases a
    | listen p =>
      simp only [Shared.step]
      split
      · next q hp =>
        split
        · next hl =>
          split
          · exact set p q _ hp (fun _ => ⟨rfl, by rw [hl]; decide⟩)
          · exact die p
        · exact ⟨ih1, ih2⟩
      · exact ⟨ih1, ih2⟩
    | openLog p =>
      simp only [Shared.step]
      split
      · next q hp =>
        split
        · exact set p q _ hp (fun hh => absurd rfl hh)
        · exact ⟨ih1, ih2⟩
      · exact ⟨ih1, ih2⟩
    | op p o =>
      simp only [Shared.step]
      split
      · next q hp =>
        split
        · next hl =>
          split
          · exact die p
          · exact set p q _ hp (fun hh => absurd hl hh)
          · exact set p q _ hp (fun hh => absurd hl hh)
        · exact ⟨ih1, ih2⟩
      · exact ⟨ih1, ih2⟩
    | marshal p i =>
      simp only [Shared.step]
      split
      · next q hp =>
        split
        · exact set p q _ hp (fun hh => ⟨rfl, hh⟩)
        · exact ⟨ih1, ih2⟩
      · exact ⟨ih1, ih2⟩
    | write p i =>
      simp only [Shared.step]
      split
      · next q hp =>
        split
        · next f hj =>
          have hs := jobs_serving hwf hp hj
          obtain ⟨s1, _⟩ := set p q { q with jobs := q.jobs.eraseIdx i } hp (fun hh => absurd hs hh)
          refine ⟨s1, fun i' q1 a b => ?_⟩
          exfalso
          have a' : (s.setProc p { q with jobs := q.jobs.eraseIdx i }).procs i' = some q1 := a
          have := s1 i' p q1 _ a' (by rw [setProc_procs, if_pos rfl])
          subst this
          rw [setProc_procs, if_pos rfl, Option.some.injEq] at a'
          subst a'
          exact b hs
        · exact ⟨ih1, ih2⟩
      · exact ⟨ih1, ih2⟩
    | kill p => exact die p

/-- C95, partial, in terms of what an operator can arrange: a process is started only while there is no other, on any
host; none is killed while a write is outstanding or panics; and no write replaces a newer file. -/
theorem C95_sequential_partial (C : Crypto) (cfg : CosignerCfg) (f : PFile) (tr : List (HEv × Option (Out CosResp)))
    (s : Shared) (hrun : HRun C cfg (fun _ s e => OneAfterTheOther C cfg s e) (.init f) tr s)
    (p p' : Nat) (bs bs' : Bytes) (r r' : SignRes) (k k' : HRST)
    (h : ReleasedBy tr p bs r) (h' : ReleasedBy tr p' bs' r')
    (hu : unpackHRST bs = .ok k) (hu' : unpackHRST bs' = .ok k')
    (hsame : k.height = k'.height ∧ k.round = k'.round ∧ k.step = k'.step) :
    DifferOnlyByTime k.step bs bs' := by
  obtain ⟨dtr, d, hd, _, _, hrel⟩ := asOne_run (ok' := fun s e => CrashesWhenIdle s e ∧ WritesInOrder s e)
    (K := fun s d => d.alive = true ∧ (s.lock = none → d.jobs = []))
    (fun tr s e hr _ p q he hl hp => by
      subst he
      by_cases hs : q.stage = .serving
      · rw [(wf_run hr).serving p q hp hs] at hl; cases hl
      · exact (alone_inv hr).2 p q hp hs)
    ⟨rfl, fun _ => rfl⟩
    (fun tr s e d hwf ha hK he => by
      have hdie : ∀ p, (∀ q, s.procs p = some q → q.jobs = []) →
          (s.die p).lock = none → d.jobs = [] := by
        intro p hq hl
        simp only [Shared.die] at hl
        split at hl
        · next hl' =>
          obtain ⟨q, hp, hs⟩ := hwf.holder p hl'
          rw [(ha.serving p q hp hs).2.1]
          exact hq q hp
        · exact hK.2 hl
      cases hp : s.proj e with
      | none =>
        simp only
        refine ⟨hK.1, ?_⟩
        cases e with
        | start p host => simp only [Shared.step]; split <;> exact hK.2
        | listen p =>
          simp only [Shared.step]
          split
          · next q hq =>
            split
            · next hl =>
              split
              · exact hK.2
              · refine hdie p fun q' hq' => ?_
                rw [hq] at hq'; cases hq'
                exact (hwf.early p q hq (by rw [hl]; decide)).2
            · exact hK.2
          · exact hK.2
        | openLog p =>
          simp only [Shared.step]
          split
          · split
            · intro hl; cases hl
            · exact hK.2
          · exact hK.2
        | op p o =>
          simp only [Shared.step]
          split
          · next q hq =>
            split
            · next hs =>
              simp only [Shared.proj, hwf.serving p q hq hs, if_true] at hp
              cases hp
            · exact hK.2
          · exact hK.2
        | marshal p i =>
          simp only [Shared.step]
          split
          · split <;> exact hK.2
          · exact hK.2
        | write p i =>
          simp only [Shared.step]
          split
          · split <;> exact hK.2
          · exact hK.2
        | kill p => exact hdie p he
      | some e' =>
        simp only
        cases e' with
        | op o =>
          obtain ⟨p, rfl, hl⟩ := proj_op hp
          obtain ⟨q, hq, hs⟩ := hwf.holder p hl
          obtain ⟨a1, a2, a3⟩ := ha.serving p q hq hs
          have hnp : (q.mem.step C cfg o).1 ≠ .panic := he q hq
          refine ⟨⟨fun hh => (nomatch hh), fun i f hh => (nomatch hh)⟩, ?_⟩
          simp only [Shared.step, hq, hs, if_true, DState.step, a3, Bool.true_eq_false, if_false, a1]
          revert hnp
          generalize q.mem.step C cfg o = x
          obtain ⟨a, m⟩ := x
          cases a with
          | panic => intro hh; exact absurd rfl hh
          | ok a => intro _; exact ⟨rfl, fun hh => by rw [show (s.setProc p _).lock = s.lock from rfl, hl] at hh; cases hh⟩
          | err a => intro _; exact ⟨rfl, fun hh => by rw [show (s.setProc p _).lock = s.lock from rfl, hl] at hh; cases hh⟩
        | marshal i =>
          refine ⟨⟨fun hh => (nomatch hh), fun i f hh => (nomatch hh)⟩, ?_⟩
          obtain ⟨p, rfl, hl⟩ := proj_marshal hp
          obtain ⟨q, hq, hs⟩ := hwf.holder p hl
          refine ⟨?_, fun hh => ?_⟩
          · simp only [DState.step]; split <;> exact hK.1
          · exfalso
            have : (s.step C cfg (.marshal p i)).2.lock = s.lock := by
              simp only [Shared.step, hq]; split <;> rfl
            rw [this, hl] at hh; cases hh
        | write i =>
          obtain ⟨p, rfl, hl⟩ := proj_write hp
          obtain ⟨q, hq, hs⟩ := hwf.holder p hl
          refine ⟨⟨fun hh => (nomatch hh), fun j f hh hj => ?_⟩, ?_, fun hh => ?_⟩
          · cases hh
            rw [ha.file]
            rw [(ha.serving p q hq hs).2.1] at hj
            exact he q f hq hj
          · simp only [DState.step]; split <;> exact hK.1
          · exfalso
            have : (s.step C cfg (.write p i)).2.lock = s.lock := by
              simp only [Shared.step, hq]; split <;> rfl
            rw [this, hl] at hh; cases hh
        | restart =>
          obtain ⟨p, q, rfl, hq, hs, hl⟩ := proj_restart hp
          refine ⟨⟨fun _ => ⟨hK.1, hK.2 hl⟩, fun i f hh => (nomatch hh)⟩, rfl, fun _ => rfl⟩)
    hrun
  exact C36_idle_partial C cfg f d dtr hd bs bs' r r' k k' ((hrel bs r).2 ⟨p, h⟩) ((hrel bs' r').2 ⟨p', h'⟩) hu hu' hsame

/-! ### Evaluation -/

def hexec (C : Crypto) (cfg : CosignerCfg) (s : Shared) (acc : List (HEv × Option (Out CosResp))) :
    List HEv → List (HEv × Option (Out CosResp)) × Shared
  | [] => (acc, s)
  | e :: es => hexec C cfg (s.step C cfg e).2 (acc ++ [(e, (s.step C cfg e).1)]) es

/-- A condition on events that can be evaluated along the way. -/
def hcheck (C : Crypto) (cfg : CosignerCfg) (q : Shared → HEv → Bool) (s : Shared) : List HEv → Bool
  | [] => true
  | e :: es => q s e && hcheck C cfg q (s.step C cfg e).2 es

theorem hexec_run {C : Crypto} {cfg : CosignerCfg} {ok : List (HEv × Option (Out CosResp)) → Shared → HEv → Prop}
    {q : Shared → HEv → Bool} (hq : ∀ tr s e, q s e = true → ok tr s e) {s0 s : Shared}
    {acc : List (HEv × Option (Out CosResp))} (h0 : HRun C cfg ok s0 acc s) (es : List HEv)
    (hc : hcheck C cfg q s es = true) : HRun C cfg ok s0 (hexec C cfg s acc es).1 (hexec C cfg s acc es).2 := by
  induction es generalizing acc s with
  | nil => exact h0
  | cons e es ih =>
    simp only [hcheck, Bool.and_eq_true] at hc
    exact ih (h0.snoc e (hq _ _ _ hc.1)) hc.2

def releasedByB (tr : List (HEv × Option (Out CosResp))) (p : Nat) (bs : Bytes) : Bool :=
  tr.any fun x => match x with
    | (.op i (.sign b), some (.ok (.signed _))) => decide (i = p ∧ b = bs)
    | _ => false

theorem releasedByB_spec {tr : List (HEv × Option (Out CosResp))} {p : Nat} {bs : Bytes}
    (h : releasedByB tr p bs = true) : ∃ r, ReleasedBy tr p bs r := by
  unfold releasedByB at h
  obtain ⟨x, hx, hq⟩ := List.any_eq_true.1 h
  split at hq
  · next i b r =>
    obtain ⟨rfl, rfl⟩ : i = p ∧ b = bs := by simpa using hq
    exact ⟨r, hx⟩
  · cases hq

/-- The kills, panics and writes of `OrderlyEnds`, evaluated. -/
def orderlyEndB (C : Crypto) (cfg : CosignerCfg) (s : Shared) : HEv → Bool
  | .kill p => match s.procs p with
    | some q => q.jobs.isEmpty
    | none => true
  | .op p o => match s.procs p with
    | some q => decide ((q.mem.step C cfg o).1 ≠ .panic)
    | none => true
  | .write p i => match s.procs p with
    | some q => match q.jobs[i]? with
      | some (.marshalled f) => decide (¬ (f.height < s.file.height ∨ f.height = s.file.height ∧
          (f.round < s.file.round ∨ f.round = s.file.round ∧ f.step < s.file.step)))
      | _ => true
    | none => true
  | _ => true

theorem orderlyEndB_spec {C : Crypto} {cfg : CosignerCfg} (s : Shared) (e : HEv) (h : orderlyEndB C cfg s e = true) :
    OrderlyEnds C cfg s e := by
  cases e with
  | kill p =>
    intro q hq
    simp only [orderlyEndB, hq] at h
    simpa using h
  | op p o =>
    intro q hq
    simp only [orderlyEndB, hq] at h
    exact of_decide_eq_true h
  | write p i =>
    intro q f hq hj
    simp only [orderlyEndB, hq, hj] at h
    exact of_decide_eq_true h
  | _ => trivial

/-- A process starts up. -/
def comesUp (p host : Nat) : List HEv := [.start p host, .listen p, .openLog p]

/-- What makes process `p` ready to sign at the height, round, step and time of `b1`. -/
def readyBy (p : Nat) : List HEv := [.op p (.getPart get1 (toyRnd 1)), .op p (.setPart (part2 5) (toyRnd 7))]

/-- The second process is started after the first has ended; it answers from the file, and refuses another block. -/
def handOver : List HEv :=
  comesUp 0 0 ++ readyBy 0 ++ [.op 0 (.sign b1), .marshal 0 0, .write 0 0, .kill 0] ++ comesUp 1 0 ++ readyBy 1 ++
    [.op 1 (.sign b1), .op 1 (.sign b1x)]

/-- The second process is started while the first runs, and waits until that has ended. -/
def overlap (host : Nat) : List HEv :=
  comesUp 0 0 ++ readyBy 0 ++ [.start 1 host, .op 0 (.sign b1), .marshal 0 0, .write 0 0, .kill 0, .listen 1, .openLog 1] ++
    readyBy 1 ++ [.op 1 (.sign b1x)]

/-- The condition of `C95_partial`, evaluated. -/
def currentB (tr : List (HEv × Option (Out CosResp))) (s : Shared) : HEv → Bool
  | .openLog p => match s.procs p with
    | some q => decide (q.file = s.file) && tr.all fun x => match x with
      | (.op _ (.sign b), some (.ok (.signed _))) => match unpackHRST b with
        | .ok k => decide (¬ q.file.hrs ≺ k.hrs)
        | _ => true
      | _ => true
    | none => true
  | _ => true

theorem currentB_spec {tr : List (HEv × Option (Out CosResp))} {s : Shared} {e : HEv} (h : currentB tr s e = true) :
    TakesOverCurrent tr s e := by
  rintro p q rfl hl hp
  simp only [currentB, hp, Bool.and_eq_true, decide_eq_true_eq] at h
  refine ⟨h.1, fun p' bs r k hr hu => ?_⟩
  have := List.all_eq_true.1 h.2 _ hr
  simp only [hu, decide_eq_true_eq] at this
  exact this

def hcheckTr (C : Crypto) (cfg : CosignerCfg) (s : Shared) (acc : List (HEv × Option (Out CosResp))) : List HEv → Bool
  | [] => true
  | e :: es => currentB acc s e && hcheckTr C cfg (s.step C cfg e).2 (acc ++ [(e, (s.step C cfg e).1)]) es

theorem hexec_current {C : Crypto} {cfg : CosignerCfg} {s0 s : Shared}
    {acc : List (HEv × Option (Out CosResp))} (h0 : HRun C cfg TakesOverCurrent s0 acc s) (es : List HEv)
    (hc : hcheckTr C cfg s acc es = true) :
    HRun C cfg TakesOverCurrent s0 (hexec C cfg s acc es).1 (hexec C cfg s acc es).2 := by
  induction es generalizing acc s with
  | nil => exact h0
  | cons e es ih =>
    simp only [hcheckTr, Bool.and_eq_true] at hc
    exact ih (h0.snoc e (currentB_spec hc.1)) hc.2

/-- Two processes, one after the other: both release a share signature for the same block, and the second refuses another
block. -/
example : ∃ tr s r r', HRun toy toyCfg TakesOverCurrent (.init emptyFile) tr s ∧ ReleasedBy tr 0 b1 r ∧
    ReleasedBy tr 1 b1 r' ∧ DifferOnlyByTime 3 b1 b1 ∧ releasedByB tr 1 b1x = false := by
  have hr := hexec_current (HRun.nil (C := toy) (cfg := toyCfg) (s0 := .init emptyFile)) handOver (by decide +kernel)
  obtain ⟨r, h1⟩ := releasedByB_spec (tr := (hexec toy toyCfg (.init emptyFile) [] handOver).1) (p := 0) (bs := b1)
    (by decide +kernel)
  obtain ⟨r', h2⟩ := releasedByB_spec (tr := (hexec toy toyCfg (.init emptyFile) [] handOver).1) (p := 1) (bs := b1)
    (by decide +kernel)
  exact ⟨_, _, r, r', hr, h1, h2,
    C95_partial toy toyCfg _ _ _ hr _ _ _ _ _ _ _ _ h1 h2 unpack_b1 unpack_b1 ⟨rfl, rfl, rfl⟩, by decide +kernel⟩

theorem procs_none {C : Crypto} {cfg : CosignerCfg} {s : Shared} {e : HEv} {i : Nat} (h : s.procs i = none)
    (he : ∀ host, e ≠ .start i host) : (s.step C cfg e).2.procs i = none := by
  have set : ∀ p q q', s.procs p = some q → (s.setProc p q').procs i = none := by
    intro p q q' hp
    rw [setProc_procs, if_neg, h]
    rintro rfl; rw [h] at hp; cases hp
  have die : ∀ p, (s.die p).procs i = none := by
    intro p; rw [die_procs]; split
    · rfl
    · exact h
  cases e <;> simp only [Shared.step]
  case start p host =>
    split
    · exact h
    · rw [setProc_procs, if_neg, h]
      rintro rfl; exact he host rfl
  case kill p => exact die p
  all_goals
    repeat' split
    all_goals first | exact h | exact die _ | (apply set; assumption)

/-- The condition of `C95_sequential_partial` for processes 0 and 1, evaluated. -/
def aloneB (C : Crypto) (cfg : CosignerCfg) (s : Shared) : HEv → Bool
  | .start p _ => decide (p < 2) && (s.procs 0).isNone && (s.procs 1).isNone
  | e => orderlyEndB C cfg s e

theorem hexec_alone {C : Crypto} {cfg : CosignerCfg} {s0 s : Shared} {acc : List (HEv × Option (Out CosResp))}
    (h0 : HRun C cfg (fun _ s e => OneAfterTheOther C cfg s e) s0 acc s) (hno : ∀ i, 2 ≤ i → s.procs i = none)
    (es : List HEv) (hc : hcheck C cfg (aloneB C cfg) s es = true) :
    HRun C cfg (fun _ s e => OneAfterTheOther C cfg s e) s0 (hexec C cfg s acc es).1 (hexec C cfg s acc es).2 := by
  induction es generalizing acc s with
  | nil => exact h0
  | cons e es ih =>
    simp only [hcheck, Bool.and_eq_true] at hc
    have hlt : ∀ i host, 2 ≤ i → e ≠ .start i host := by
      rintro i host hi rfl
      have := hc.1
      simp only [aloneB, Bool.and_eq_true, decide_eq_true_eq] at this
      omega
    have hok : OneAfterTheOther C cfg s e := by
      cases e with
      | start p host =>
        have := hc.1
        simp only [aloneB, Bool.and_eq_true, decide_eq_true_eq, Option.isNone_iff_eq_none] at this
        intro i
        rcases i with _ | _ | i
        · exact this.1.2
        · exact this.2
        · exact hno _ (by omega)
      | listen p => trivial
      | openLog p => trivial
      | marshal p i => trivial
      | op p o => exact orderlyEndB_spec (C := C) (cfg := cfg) s (.op p o) hc.1
      | write p i => exact orderlyEndB_spec (C := C) (cfg := cfg) s (.write p i) hc.1
      | kill p => exact orderlyEndB_spec (C := C) (cfg := cfg) s (.kill p) hc.1
    exact ih (h0.snoc e hok) (fun i hi => procs_none (hno i hi) (fun host => hlt i host hi)) hc.2

/-- The same history meets the conditions of `C95_sequential_partial`. -/
example : ∃ tr s r r', HRun toy toyCfg (fun _ s e => OneAfterTheOther toy toyCfg s e) (.init emptyFile) tr s ∧
    ReleasedBy tr 0 b1 r ∧ ReleasedBy tr 1 b1 r' := by
  have hr := hexec_alone (HRun.nil (C := toy) (cfg := toyCfg) (s0 := .init emptyFile)) (fun _ _ => rfl) handOver
    (by decide +kernel)
  obtain ⟨r, h1⟩ := releasedByB_spec (tr := (hexec toy toyCfg (.init emptyFile) [] handOver).1) (p := 0) (bs := b1)
    (by decide +kernel)
  obtain ⟨r', h2⟩ := releasedByB_spec (tr := (hexec toy toyCfg (.init emptyFile) [] handOver).1) (p := 1) (bs := b1)
    (by decide +kernel)
  exact ⟨_, _, r, r', hr, h1, h2⟩

/-- C95 (full statement) is false: a process started on the same host before the other has ended has loaded the state
file of then. After the other one has signed, written its file and ended in good order, it takes the port and the lock, and
signs another block at the same height, round and step, although the state file names that height, round and step. -/
theorem C95_fails : ∃ (C : Crypto) (cfg : CosignerCfg) (f : PFile) (tr : List (HEv × Option (Out CosResp))) (s : Shared)
    (bs bs' : Bytes) (r r' : SignRes) (k : HRST),
    HRun C cfg (fun _ s e => OrderlyEnds C cfg s e) (.init f) tr s ∧ ReleasedBy tr 0 bs r ∧ ReleasedBy tr 1 bs' r' ∧
    unpackHRST bs = .ok k ∧ unpackHRST bs' = .ok k ∧ s.file.hrs = k.hrs ∧ ¬ DifferOnlyByTime k.step bs bs' := by
  have hr := hexec_run (fun _ => orderlyEndB_spec (C := toy) (cfg := toyCfg)) (HRun.nil (C := toy) (cfg := toyCfg) (s0 := .init emptyFile)) (overlap 0)
    (by decide +kernel)
  obtain ⟨r, h1⟩ := releasedByB_spec (tr := (hexec toy toyCfg (.init emptyFile) [] (overlap 0)).1) (p := 0) (bs := b1)
    (by decide +kernel)
  obtain ⟨r', h2⟩ := releasedByB_spec (tr := (hexec toy toyCfg (.init emptyFile) [] (overlap 0)).1) (p := 1) (bs := b1x)
    (by decide +kernel)
  refine ⟨_, _, _, _, _, b1, b1x, r, r', _, hr, h1, h2, unpack_b1, unpack_b1x, by decide +kernel, fun hd => ?_⟩
  have hn : onlyDifferByTimestamp 3 b1 b1x ≠ none := by decide +kernel
  exact hn ((onlyDiffer_iff 3 b1 b1x).2 hd)

/-- A cosigner of a correctly dealt key that starts with a watermark below `k` signs any sign bytes for `k`. -/
theorem start_signs {C : Crypto} {F G : Type} [Field F] [AddCommGroup G] [Module F G] {L : Lawful C F G}
    {pair : Bytes → Bytes → Prop} {n t : Nat} {cfg : Nat → CosignerCfg} {x : F} {kc : List F} {rsaPub : Nat → Bytes}
    (hS : Setup C L pair n t cfg x kc rsaPub) {i : Nat} (hi : 1 ≤ i ∧ i ≤ n) (f : PFile)
    {bs : Bytes} {k : HRST} (hu : unpackHRST bs = .ok k) (hlow : f.hrs ≺ k.hrs)
    {rnd : Rand} {sec : Bytes} (hrnd : rnd.secret = some sec) (hsec : sec.length = 32) :
    ∃ part s2 res s3,
      (CState.start f.load).step C (cfg i) (.getPart ⟨i, k.height, k.round, k.step, GoTime.ofUnixNano k.timestamp⟩ rnd) =
        (.ok (.part part), s2) ∧
      s2.step C (cfg i) (.sign bs) = (.ok (.signed res), s3) ∧ res.signature ≠ none := by
  have hk : IsI64 k.timestamp := unpack_time_i64 hu
  have hm : ∃ s1, metaFor C (cfg i) (CState.start f.load) k k rnd = some (0, s1) ∧ s1.hrsMeta k = some 0 ∧
      s1.lss = f.load ∧ s1.heap[0]? = some ⟨sec, C.dealShares sec rnd.deal t n,
        slotsOf L n (fun _ => sec) (fun _ => L.coeffs rnd.deal t) i []⟩ := by
    unfold metaFor dealSharesFor
    simp only [CState.start]
    rw [hrnd]
    simp only
    refine ⟨_, rfl, ?_, rfl, ?_⟩
    · simp [CState.setMeta]
    · simp [CState.setMeta, slotsOf_nil, hS.total i hi.1 hi.2, hS.threshold i hi.1 hi.2]
  obtain ⟨s1, hm, he, hlss, hrec⟩ := hm
  obtain ⟨part, s2, g1, _, g3, g4⟩ := getPart_honest hS hi.1 hi.2 hi.1 hi.2 hk hsec (.inl rfl) hm he hrec
  have g4' : Rec s2 k (fullRecord L n t i (fun _ => sec) (fun _ => rnd.deal) [i]) := g4
  obtain ⟨res, s3, e1, _, e3, _⟩ := sign_honest hS hi.1 hi.2 hu (by rw [g3, hlss]; exact hlow) g4'
  exact ⟨part, s2, res, s3, by simp only [CState.step, g1, Out.map], by simp only [CState.step, e1, Out.map],
    by rw [e3]; simp⟩

/-- C95: the condition on the loaded watermark is needed. Whatever happened before: if a process of an honest cosigner is
waiting for the lock with a watermark below a share signature that was released, by the serving process or one before,
then as soon as the serving process ends, the waiting one takes over and signs any sign bytes for that height, round and
step, conflicting or not: two calls are enough. What the state file holds does not matter. -/
theorem C95_needed {C : Crypto} {F G : Type} [Field F] [AddCommGroup G] [Module F G] (L : Lawful C F G)
    (pair : Bytes → Bytes → Prop) (n t : Nat) (cfg : Nat → CosignerCfg) (x : F) (kc : List F) (rsaPub : Nat → Bytes)
    (hS : Setup C L pair n t cfg x kc rsaPub) (i : Nat) (hi : 1 ≤ i ∧ i ≤ n)
    (f : PFile) (tr : List (HEv × Option (Out CosResp))) (s : Shared)
    (hrun : HRun C (cfg i) anyEvent (.init f) tr s) (a p : Nat) (q : HProc) (ha : s.lock = some a)
    (hp : s.procs p = some q) (hq : q.stage = .listening)
    (p0 : Nat) (bs : Bytes) (r : SignRes) (k : HRST) (_hrel : ReleasedBy tr p0 bs r) (_hu : unpackHRST bs = .ok k)
    (hlow : q.file.height < k.height ∨ q.file.height = k.height ∧
      (q.file.round < k.round ∨ q.file.round = k.round ∧ q.file.step < k.step))
    (bs' : Bytes) (k' : HRST) (hu' : unpackHRST bs' = .ok k')
    (hsame : k.height = k'.height ∧ k.round = k'.round ∧ k.step = k'.step)
    (rnd : Rand) (sec : Bytes) (hrnd : rnd.secret = some sec) (hsec : sec.length = 32) :
    ∃ (part : SecretPart) (r' : SignRes) (s' : Shared), r'.signature ≠ none ∧
      HRun C (cfg i) anyEvent (.init f) (tr ++ [(.kill a, none), (.openLog p, none),
        (.op p (.getPart ⟨i, k'.height, k'.round, k'.step, GoTime.ofUnixNano k'.timestamp⟩ rnd), some (.ok (.part part))),
        (.op p (.sign bs'), some (.ok (.signed r')))]) s' := by
  have hwf := wf_run hrun
  have hne : p ≠ a := by
    rintro rfl
    obtain ⟨q', h1, h2⟩ := hwf.holder p ha
    rw [hp] at h1; cases h1; rw [hq] at h2; cases h2
  have hlow' : q.file.hrs ≺ k'.hrs := by
    unfold Spec.HRS.lt HRST.hrs
    rw [← hsame.1, ← hsame.2.1, ← hsame.2.2]
    exact hlow
  obtain ⟨part, s2, res, s3, e1, e2, e3⟩ := start_signs hS hi q.file hu' hlow' hrnd hsec
  rw [← (hwf.early p q hp (by rw [hq]; decide)).1] at e1
  have r1 := (hrun.snoc (.kill a) trivial).snoc (.openLog p) trivial
  have q1 : (s.step C (cfg i) (.kill a)).2 = s.die a := rfl
  have q1' : (s.step C (cfg i) (.kill a)).1 = none := rfl
  rw [q1, q1'] at r1
  have hp1 : (s.die a).procs p = some q := by rw [die_procs, if_neg hne, hp]
  have hl1 : (s.die a).lock = none := by simp [Shared.die, ha]
  have q2 : (s.die a).step C (cfg i) (.openLog p) =
      (none, { (s.die a).setProc p { q with stage := .serving } with lock := some p }) := by
    simp only [Shared.step, hp1, hq, hl1, and_self, if_true]
  rw [q2] at r1
  have r2 := r1.snoc (.op p (.getPart ⟨i, k'.height, k'.round, k'.step, GoTime.ofUnixNano k'.timestamp⟩ rnd)) trivial
  obtain ⟨u, q3, q', hu3, hs3, hm3⟩ : ∃ u, ({ (s.die a).setProc p { q with stage := .serving } with lock := some p } :
      Shared).step C (cfg i) (.op p (.getPart ⟨i, k'.height, k'.round, k'.step, GoTime.ofUnixNano k'.timestamp⟩ rnd)) =
      (some (.ok (.part part)), u) ∧ ∃ q', u.procs p = some q' ∧ q'.stage = .serving ∧ q'.mem = s2 := by
    simp only [Shared.step, setProc_procs, if_true, e1]
    exact ⟨_, rfl, _, by rw [setProc_procs, if_pos rfl], rfl, rfl⟩
  rw [q3] at r2
  have r3 := r2.snoc (.op p (.sign bs')) trivial
  have q4 : (u.step C (cfg i) (.op p (.sign bs'))).1 = some (.ok (.signed res)) := by
    simp only [Shared.step, hu3, hs3, if_true, hm3, e2]
  rw [q4] at r3
  exact ⟨part, res, _, e3, by simpa using r3⟩

/-- Cosigner 2 of the 2-of-3 cluster: a second process waits for the lock on another host, with the empty state it loaded,
while the first signs a precommit of height 7 and writes its file. -/
def waiting : List HEv :=
  comesUp 0 0 ++ [.start 1 1, .listen 1, .openLog 1,
    .op 0 (.getPart ⟨1, 7, 1, 3, GoTime.ofUnixNano 1600000000000000005⟩ (trnd 2 1)), .op 0 (.sign b1), .marshal 0 0,
    .write 0 0]

example : ∃ tr s r, HRun ftoy (fcfg 2) anyEvent (.init emptyFile) tr s ∧ ReleasedBy tr 0 b1 r ∧ s.file.height = 7 ∧
    ∃ part r' s', HRun ftoy (fcfg 2) anyEvent (.init emptyFile) (tr ++ [(.kill 0, none), (.openLog 1, none),
        (.op 1 (.getPart ⟨2, 7, 1, 3, GoTime.ofUnixNano 1600000000000000005⟩ (trnd 4 1)), some (.ok (.part part))),
        (.op 1 (.sign b1x), some (.ok (.signed r')))]) s' := by
  have hr := hexec_run (q := fun _ _ => true) (ok := anyEvent) (fun _ _ _ _ => trivial)
    (HRun.nil (C := ftoy) (cfg := fcfg 2) (s0 := .init emptyFile)) waiting (by decide +kernel)
  obtain ⟨r, h1⟩ := releasedByB_spec (tr := (hexec ftoy (fcfg 2) (.init emptyFile) [] waiting).1) (p := 0) (bs := b1)
    (by decide +kernel)
  obtain ⟨q, hq, hst⟩ : ∃ q, (hexec ftoy (fcfg 2) (.init emptyFile) [] waiting).2.procs 1 = some q ∧
      (q.stage, q.file.height) = (.listening, 0) := by
    have h : ((hexec ftoy (fcfg 2) (.init emptyFile) [] waiting).2.procs 1).map (fun q => (q.stage, q.file.height)) =
        some (.listening, 0) := by decide +kernel
    exact Option.map_eq_some_iff.1 h
  simp only [Prod.mk.injEq] at hst
  obtain ⟨part, r', s', _, h2⟩ := C95_needed ftoyLawful _ 3 2 fcfg 42 [7] _ fsetup 2 (by decide) _ _ _ hr 0 1 q
    (by decide +kernel) hq hst.1 0 b1 r _ h1 unpack_b1 (.inl (by rw [hst.2]; decide)) b1x _ unpack_b1x ⟨rfl, rfl, rfl⟩
    (trnd 4 1) _ rfl (by decide +kernel)
  exact ⟨_, _, r, hr, h1, by decide +kernel, part, r', s', h2⟩

/-- On the same host, the second process does not get beyond listening while the first is there. -/
example : ((hexec toy toyCfg (.init emptyFile) [] (comesUp 0 0 ++ comesUp 1 0)).2.procs 1).isNone = true := by
  decide +kernel

end Horcrux
