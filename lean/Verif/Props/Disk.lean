import Mathlib.Data.List.Induction
import Verif.Lemmas.Disk
import Verif.Props.Cosigner
/-
Properties C36–C38: the share state file of a cosigner, background writes, crashes and restarts.
-/
namespace Horcrux
open Spec

variable (C : Crypto) (cfg : CosignerCfg)

/-! ### Concrete material -/

/-- Every event allowed. -/
def anything (_ : DState) (_ : DEv) : Prop := True

/-- Run a list of events. -/
def dexec (C : Crypto) (cfg : CosignerCfg) (s : DState) (acc : List (DEv × Option (Out CosResp))) :
    List DEv → List (DEv × Option (Out CosResp)) × DState
  | [] => (acc, s)
  | e :: es => dexec C cfg (s.step C cfg e).2 (acc ++ [(e, (s.step C cfg e).1)]) es

/-- A condition on events that can be evaluated along the way. -/
def dcheck (C : Crypto) (cfg : CosignerCfg) (q : DState → DEv → Bool) (s : DState) : List DEv → Bool
  | [] => true
  | e :: es => q s e && dcheck C cfg q (s.step C cfg e).2 es

theorem dexec_run {C : Crypto} {cfg : CosignerCfg} {ok : DState → DEv → Prop} {q : DState → DEv → Bool}
    (hq : ∀ s e, q s e = true → ok s e) {s0 s : DState} {acc : List (DEv × Option (Out CosResp))}
    (h0 : DRun C cfg ok s0 acc s) (es : List DEv) (hc : dcheck C cfg q s es = true) :
    DRun C cfg ok s0 (dexec C cfg s acc es).1 (dexec C cfg s acc es).2 := by
  induction es generalizing acc s with
  | nil => exact h0
  | cons e es ih =>
    simp only [dcheck, Bool.and_eq_true] at hc
    exact ih (h0.snoc e (hq _ _ hc.1)) hc.2

def emptyFile : PFile := ⟨0, 0, 0, none, none, none⟩

/-- The precommit of `b1` for another block. -/
def b1x : Bytes := bytesOf (voteSignBytes [97] { vote1 with blockID := ⟨List.replicate 32 9, 1, List.replicate 32 9⟩ })

/-- What makes a cosigner ready to sign at the height, round, step and time of `b1`. -/
def ready1 : List DEv := [.op (.getPart get1 (toyRnd 1)), .op (.setPart (part2 5) (toyRnd 7))]

def dreleasedB (tr : List (DEv × Option (Out CosResp))) (bs : Bytes) : Bool :=
  tr.any fun x => match x with
    | (.op (.sign b), some (.ok (.signed _))) => decide (b = bs)
    | _ => false

theorem dreleasedB_spec {tr : List (DEv × Option (Out CosResp))} {bs : Bytes} (h : dreleasedB tr bs = true) :
    ∃ r, DReleased tr bs r := by
  unfold dreleasedB at h
  obtain ⟨x, hx, hq⟩ := List.any_eq_true.1 h
  split at hq
  · next b r =>
    have : b = bs := by simpa using hq
    subst this
    exact ⟨r, hx⟩
  · cases hq

/-! ### C36 -/

/-- C36, partial: over any number of lives of a cosigner process, with any requests and any scheduling of its
background writes, if it only dies while its state file holds the watermark record it has in memory, then two share
signatures ever released for one height, round and step are over sign bytes that differ in nothing but the time.
Missing: deaths while the newest record has not reached the file; then it is false (`C36_fails`). -/
theorem C36_partial (f : PFile) (s : DState) (tr : List (DEv × Option (Out CosResp)))
    (hrun : DRun C cfg CrashesWhenRecorded (DState.boot f) tr s)
    (bs bs' : Bytes) (r r' : SignRes) (k k' : HRST)
    (h : (DEv.op (.sign bs), some (Out.ok (CosResp.signed r))) ∈ tr)
    (h' : (DEv.op (.sign bs'), some (Out.ok (CosResp.signed r'))) ∈ tr)
    (hu : unpackHRST bs = .ok k) (hu' : unpackHRST bs' = .ok k')
    (hsame : k.height = k'.height ∧ k.round = k'.round ∧ k.step = k'.step) :
    DifferOnlyByTime k.step bs bs' :=
  drun_no_conflict (fun _ _ h => h) hrun h h' hu hu'
    (by unfold HRST.hrs; rw [hsame.1, hsame.2.1, hsame.2.2])

/-- C36, partial, in terms of what an operator can arrange: it is enough that the process is only killed while no
background write is outstanding, and that no write overwrites a newer file. -/
theorem C36_idle_partial (f : PFile) (s : DState) (tr : List (DEv × Option (Out CosResp)))
    (hrun : DRun C cfg (fun s e => CrashesWhenIdle s e ∧ WritesInOrder s e) (DState.boot f) tr s)
    (bs bs' : Bytes) (r r' : SignRes) (k k' : HRST)
    (h : (DEv.op (.sign bs), some (Out.ok (CosResp.signed r))) ∈ tr)
    (h' : (DEv.op (.sign bs'), some (Out.ok (CosResp.signed r'))) ∈ tr)
    (hu : unpackHRST bs = .ok k) (hu' : unpackHRST bs' = .ok k')
    (hsame : k.height = k'.height ∧ k.round = k'.round ∧ k.step = k'.step) :
    DifferOnlyByTime k.step bs bs' := by
  have hrun' : DRun C cfg (fun s e => CrashesWhenRecorded s e ∧ WritesInOrder s e) (DState.boot f) tr s := by
    refine hrun.strengthen (fun tr s e hr he => ⟨?_, he.2⟩)
    intro hre
    obtain ⟨ha, hj⟩ := he.1 hre
    exact idle_related kept_record (fun _ _ h => h.2) hr ha hj
  exact C36_partial C cfg f s tr (hrun'.mono (fun _ _ h => h.1)) bs bs' r r' k k' h h' hu hu' hsame

/-- A history with a restart, meeting the conditions of both theorems: sign, write, restart, and sign a later time. -/
def goodLife : List DEv :=
  ready1 ++ [.op (.sign b1), .marshal 0, .write 0, .restart, .op (.getPart get2 (toyRnd 3)),
    .op (.setPart { part2 5 with timestamp := ⟨1600000001, 0⟩ } (toyRnd 7)), .op (.sign b2), .op (.sign b1x)]

def idleB (s : DState) (e : DEv) : Bool :=
  (e != .restart || (s.alive && s.jobs.isEmpty)) &&
  match e with
  | .write i => match s.jobs[i]? with
    | some (.marshalled f) => decide (¬ (f.height < s.file.height ∨ f.height = s.file.height ∧
        (f.round < s.file.round ∨ f.round = s.file.round ∧ f.step < s.file.step)))
    | _ => true
  | _ => true

theorem idleB_spec (s : DState) (e : DEv) (h : idleB s e = true) : CrashesWhenIdle s e ∧ WritesInOrder s e := by
  unfold idleB at h
  rw [Bool.and_eq_true] at h
  refine ⟨?_, ?_⟩
  · rintro rfl
    have := h.1
    simpa using this
  · rintro i f rfl hj
    have := h.2
    simp only [hj] at this
    exact of_decide_eq_true this

example : (∃ tr s r r', DRun toy toyCfg (fun s e => CrashesWhenIdle s e ∧ WritesInOrder s e) (DState.boot emptyFile) tr s ∧
    DReleased tr b1 r ∧ DReleased tr b2 r') ∧ DifferOnlyByTime 3 b1 b2 := by
  have hr := dexec_run idleB_spec (DRun.nil (C := toy) (cfg := toyCfg) (s0 := DState.boot emptyFile)) goodLife
    (by decide +kernel)
  obtain ⟨r, h1⟩ := dreleasedB_spec (tr := (dexec toy toyCfg (DState.boot emptyFile) [] goodLife).1) (bs := b1)
    (by decide +kernel)
  obtain ⟨r', h2⟩ := dreleasedB_spec (tr := (dexec toy toyCfg (DState.boot emptyFile) [] goodLife).1) (bs := b2)
    (by decide +kernel)
  exact ⟨⟨_, _, r, r', hr, h1, h2⟩,
    C36_idle_partial toy toyCfg _ _ _ hr _ _ _ _ _ _ h1 h2 unpack_b1 unpack_b2 ⟨rfl, rfl, rfl⟩⟩

/-- A history in which the process dies between signing and the write of the file. -/
def badLife : List DEv := ready1 ++ [.op (.sign b1), .marshal 0, .restart] ++ ready1 ++ [.op (.sign b1x)]

theorem unpack_b1x : unpackHRST b1x = .ok ⟨7, 1, 3, 1600000000000000005⟩ := by decide +kernel

/-- C36 (full statement) is false: a process killed after answering, before its background write, forgets what it
signed and after the restart signs another block at the same height, round and step. -/
theorem C36_fails : ∃ (C : Crypto) (cfg : CosignerCfg) (f : PFile) (s : DState) (tr : List (DEv × Option (Out CosResp)))
    (bs bs' : Bytes) (r r' : SignRes) (k : HRST),
    DRun C cfg anything (DState.boot f) tr s ∧
    (DEv.op (.sign bs), some (Out.ok (CosResp.signed r))) ∈ tr ∧
    (DEv.op (.sign bs'), some (Out.ok (CosResp.signed r'))) ∈ tr ∧
    unpackHRST bs = .ok k ∧ unpackHRST bs' = .ok k ∧ ¬ DifferOnlyByTime k.step bs bs' := by
  have hr := dexec_run (q := fun _ _ => true) (ok := anything) (fun _ _ _ => trivial)
    (DRun.nil (C := toy) (cfg := toyCfg) (s0 := DState.boot emptyFile)) badLife (by decide +kernel)
  obtain ⟨r, h1⟩ := dreleasedB_spec (tr := (dexec toy toyCfg (DState.boot emptyFile) [] badLife).1) (bs := b1)
    (by decide +kernel)
  obtain ⟨r', h2⟩ := dreleasedB_spec (tr := (dexec toy toyCfg (DState.boot emptyFile) [] badLife).1) (bs := b1x)
    (by decide +kernel)
  refine ⟨_, _, _, _, _, b1, b1x, r, r', _, hr, h1, h2, unpack_b1, unpack_b1x, fun hd => ?_⟩
  have hn : onlyDifferByTimestamp 3 b1 b1x ≠ none := by decide +kernel
  exact hn ((onlyDiffer_iff 3 b1 b1x).2 hd)

/-! ### C37 -/

/-- C37, partial: if no write overwrites a newer file, then whenever the process is up and no background write is
outstanding, the file holds the watermark and the signature and sign bytes in memory. Missing: the ephemeral public
key (`C37_partial`, `C37_ephemeral_fails`) and writes that finish out of order (`C37_stale_fails`). -/
theorem C37_record_partial (f : PFile) (s : DState) (tr : List (DEv × Option (Out CosResp)))
    (hrun : DRun C cfg WritesInOrder (DState.boot f) tr s) (hup : s.alive = true) (hidle : s.jobs = []) :
    HoldsRecord s.file s.mem.lss :=
  idle_related kept_record (fun _ _ h => h) hrun hup hidle

/-- C37, partial: the order condition is met if the goroutines run one after the other. -/
theorem C37_serial_partial (f : PFile) (s : DState) (tr : List (DEv × Option (Out CosResp)))
    (hrun : DRun C cfg OneAtATime (DState.boot f) tr s) (hup : s.alive = true) (hidle : s.jobs = []) :
    HoldsRecord s.file s.mem.lss :=
  C37_record_partial C cfg f s tr ((oneAtATime_ordered (fun _ _ h => h) hrun).mono (fun _ _ h => h.2)) hup hidle

/-- C37, partial: if in addition nothing is signed a second time at the same height, round and step (with another
time), the file holds exactly the state in memory. -/
theorem C37_partial (f : PFile) (s : DState) (tr : List (DEv × Option (Out CosResp)))
    (hrun : DRun C cfg (fun s e => WritesInOrder s e ∧ NoResign C cfg s e) (DState.boot f) tr s)
    (hup : s.alive = true) (hidle : s.jobs = []) : Holds s.file s.mem.lss :=
  idle_related (kept_holds (fun _ _ h => h.2)) (fun _ _ h => h.1) hrun hup hidle

/-- The parts for `get1`'s block one height up. -/
def ready3 : List DEv := [.op (.getPart get3 (toyRnd 1)), .op (.setPart { part2 5 with height := 8 } (toyRnd 7))]

def serialLife : List DEv :=
  ready1 ++ [.op (.sign b1), .marshal 0] ++ ready3 ++ [.op (.sign b3), .write 0, .marshal 0, .write 0]

def noResignB (C : Crypto) (cfg : CosignerCfg) (s : DState) (e : DEv) : Bool :=
  match e with
  | .op o => decide ((s.mem.step C cfg o).2.lss.hrs = s.mem.lss.hrs →
    (s.mem.step C cfg o).2.lss.ephemeralPublic = s.mem.lss.ephemeralPublic)
  | _ => true

theorem noResignB_spec {C : Crypto} {cfg : CosignerCfg} (s : DState) (e : DEv) (h : noResignB C cfg s e = true) :
    NoResign C cfg s e := by
  rintro o rfl
  exact of_decide_eq_true h

/-- Two signatures and their two writes: the file ends up at height 8 with a signature. -/
example : ∃ tr s, DRun toy toyCfg (fun s e => WritesInOrder s e ∧ NoResign toy toyCfg s e) (DState.boot emptyFile) tr s ∧
    s.alive = true ∧ s.jobs = [] ∧ s.file.height = 8 ∧ s.file.signature ≠ none := by
  have hr := dexec_run (q := fun s e => idleB s e && noResignB toy toyCfg s e)
    (ok := fun s e => WritesInOrder s e ∧ NoResign toy toyCfg s e)
    (fun s e h => by
      rw [Bool.and_eq_true] at h
      exact ⟨(idleB_spec s e h.1).2, noResignB_spec s e h.2⟩)
    (DRun.nil (C := toy) (cfg := toyCfg) (s0 := DState.boot emptyFile)) serialLife (by decide +kernel)
  exact ⟨_, _, hr, by decide +kernel, by decide +kernel, by decide +kernel, by decide +kernel⟩

/-- The same goroutines, the first writing last. -/
def staleLife : List DEv :=
  ready1 ++ [.op (.sign b1), .marshal 0] ++ ready3 ++ [.op (.sign b3), .marshal 1, .write 1, .write 0]

/-- C37 (full statement) is false: a goroutine that marshalled an older state can write last; with no write left to
come the file is at a lower height than the process. -/
theorem C37_stale_fails : ∃ (C : Crypto) (cfg : CosignerCfg) (f : PFile) (s : DState)
    (tr : List (DEv × Option (Out CosResp))), DRun C cfg anything (DState.boot f) tr s ∧ s.alive = true ∧ s.jobs = [] ∧
    s.file.height < s.mem.lss.height := by
  have hr := dexec_run (q := fun _ _ => true) (ok := anything) (fun _ _ _ => trivial)
    (DRun.nil (C := toy) (cfg := toyCfg) (s0 := DState.boot emptyFile)) staleLife (by decide +kernel)
  exact ⟨_, _, _, _, _, hr, by decide +kernel, by decide +kernel, by decide +kernel⟩

/-- Signing the same vote at two times. -/
def resignLife : List DEv :=
  ready1 ++ [.op (.getPart get2 (toyRnd 3)),
    .op (.setPart { part2 6 with timestamp := ⟨1600000001, 0⟩ } (toyRnd 7)),
    .op (.sign b1), .marshal 0, .write 0, .op (.sign b2)]

def serialB (_ : DState) (e : DEv) : Bool :=
  match e with
  | .marshal i => i == 0
  | .write i => i == 0
  | _ => true

theorem serialB_spec (s : DState) (e : DEv) (h : serialB s e = true) : OneAtATime s e := by
  rintro i (rfl | rfl) <;> simpa [serialB] using h

/-- C37 (full statement) is false even with orderly writes: signing a second time at the same height, round and step
replaces the ephemeral public key in memory, and nothing is written. -/
theorem C37_ephemeral_fails : ∃ (C : Crypto) (cfg : CosignerCfg) (f : PFile) (s : DState)
    (tr : List (DEv × Option (Out CosResp))), DRun C cfg OneAtATime (DState.boot f) tr s ∧ s.alive = true ∧ s.jobs = [] ∧
    s.file.height = s.mem.lss.height ∧ s.file.ephemeralPublic ≠ s.mem.lss.ephemeralPublic := by
  have hr := dexec_run serialB_spec
    (DRun.nil (C := toy) (cfg := toyCfg) (s0 := DState.boot emptyFile)) resignLife (by decide +kernel)
  exact ⟨_, _, _, _, _, hr, by decide +kernel, by decide +kernel, by decide +kernel, by decide +kernel⟩

/-- C37, exactly: whatever the scheduling of the writes and however often the process restarts, a file with the height,
round and step in memory holds the record in memory; any other is behind. -/
theorem C37_exact (ok : DState → DEv → Prop) (f : PFile) (s : DState) (tr : List (DEv × Option (Out CosResp)))
    (hrun : DRun C cfg ok (DState.boot f) tr s) :
    (HoldsRecord s.file s.mem.lss ↔ s.file.hrs = s.mem.lss.hrs) ∧
    (Holds s.file s.mem.lss ↔ s.file.hrs = s.mem.lss.hrs ∧
      s.file.ephemeralPublic.bytes = s.mem.lss.ephemeralPublic.bytes) ∧
    (¬ HoldsRecord s.file s.mem.lss → s.file.hrs ≺ s.mem.lss.hrs) := by
  have h := fileInv_run kept_record (fileInv_boot (kept_record (C := C) (cfg := cfg) (ok := ok)) f) hrun _ (.inl rfl)
  have h1 : HoldsRecord s.file s.mem.lss ↔ s.file.hrs = s.mem.lss.hrs :=
    ⟨fun h => by simp only [PFile.hrs, SignState.hrs, h.height, h.round, h.step], h.2⟩
  refine ⟨h1, ⟨fun h => ⟨by simp only [PFile.hrs, SignState.hrs, h.height, h.round, h.step], h.ephemeralPublic⟩,
    fun h2 => ?_⟩, fun h2 => ?_⟩
  · have h3 := h1.2 h2.1
    exact ⟨h3.height, h3.round, h3.step, h2.2, h3.signature, h3.signBytes⟩
  · rcases h.1 with h | h
    · exact absurd (h1.2 h) h2
    · exact h

/-- C37, what decides: when the last outstanding write is done, the file holds the record in memory exactly if the state
that was written was marshalled at the height, round and step that the process has now. -/
theorem C37_last (ok : DState → DEv → Prop) (f g : PFile) (s : DState) (tr : List (DEv × Option (Out CosResp)))
    (hrun : DRun C cfg ok (DState.boot f) tr s) (hj : s.jobs = [.marshalled g]) :
    (s.step C cfg (.write 0)).2.jobs = [] ∧ (s.step C cfg (.write 0)).2.mem = s.mem ∧
    (s.step C cfg (.write 0)).2.file = g ∧ (HoldsRecord g s.mem.lss ↔ g.hrs = s.mem.lss.hrs) ∧
    (¬ HoldsRecord g s.mem.lss → g.hrs ≺ s.mem.lss.hrs) := by
  have h := fileInv_run kept_record (fileInv_boot (kept_record (C := C) (cfg := cfg) (ok := ok)) f) hrun g
    (.inr (by simp [hj]))
  have h1 : HoldsRecord g s.mem.lss ↔ g.hrs = s.mem.lss.hrs :=
    ⟨fun h => by simp only [PFile.hrs, SignState.hrs, h.height, h.round, h.step], h.2⟩
  refine ⟨by simp [DState.step, hj], by simp [DState.step, hj], by simp [DState.step, hj], h1, fun h2 => ?_⟩
  rcases h.1 with h | h
  · exact absurd (h1.2 h) h2
  · exact h

/-- C37, the other way to lose: an operation that leaves the height, round and step as they are and changes the ephemeral
key (a vote signed again at another time) starts no write, so that a file that was up to date is not any more. -/
theorem C37_resign_fails (s : DState) (o : CosOp) (hup : s.alive = true) (hidle : s.jobs = [])
    (hf : Holds s.file s.mem.lss) (hp : (s.mem.step C cfg o).1 ≠ .panic)
    (hk : (s.mem.step C cfg o).2.lss.hrs = s.mem.lss.hrs)
    (he : (s.mem.step C cfg o).2.lss.ephemeralPublic.bytes ≠ s.mem.lss.ephemeralPublic.bytes) :
    (s.step C cfg (.op o)).2.alive = true ∧ (s.step C cfg (.op o)).2.jobs = [] ∧
    ¬ Holds (s.step C cfg (.op o)).2.file (s.step C cfg (.op o)).2.mem.lss := by
  rcases dstep_op (C := C) (cfg := cfg) s o with ⟨ha, _⟩ | ⟨_, ha, _⟩ | ⟨_, _, hs⟩
  · simp [hup] at ha
  · exact absurd ha hp
  · rw [hs]
    refine ⟨hup, by simp [spawn, hk, hidle], fun h => he ?_⟩
    rw [← h.ephemeralPublic]
    exact hf.ephemeralPublic

/-- The last write of `staleLife` is of an older state; the signature at a second time in `resignLife` changes the key. -/
example : (dexec toy toyCfg (DState.boot emptyFile) [] (staleLife.take 9)).2.jobs.length = 1 ∧
    (dexec toy toyCfg (DState.boot emptyFile) [] (staleLife.take 9)).2.mem.lss.height = 8 := by decide +kernel

example : (dexec toy toyCfg (DState.boot emptyFile) [] (resignLife.take 7)).2.jobs = [] ∧
    ((dexec toy toyCfg (DState.boot emptyFile) [] (resignLife.take 7)).2.mem.step toy toyCfg (.sign b2)).2.lss.hrs =
      (dexec toy toyCfg (DState.boot emptyFile) [] (resignLife.take 7)).2.mem.lss.hrs ∧
    ((dexec toy toyCfg (DState.boot emptyFile) [] (resignLife.take 7)).2.mem.step toy toyCfg (.sign b2)).2.lss.ephemeralPublic.bytes ≠
      (dexec toy toyCfg (DState.boot emptyFile) [] (resignLife.take 7)).2.mem.lss.ephemeralPublic.bytes := by
  decide +kernel

/-! ### C38 -/

/-- C38, partial (marshalling as one step): at every moment the file holds exactly the persistent fields of a state
the process had at that or an earlier moment. Missing: marshalling that overlaps with a `Save` (`C38_torn_fails`). -/
theorem C38_partial (ok : DState → DEv → Prop) (f : PFile) (s : DState) (tr : List (DEv × Option (Out CosResp)))
    (hrun : DRun C cfg ok (DState.boot f) tr s) :
    ∃ tr1 tr2 s1, tr = tr1 ++ tr2 ∧ DRun C cfg ok (DState.boot f) tr1 s1 ∧ Holds s.file s1.mem.lss := by
  suffices H : ∀ g, s.Pending g → ∃ tr1 tr2 s1, tr = tr1 ++ tr2 ∧ DRun C cfg ok (DState.boot f) tr1 s1 ∧
      Holds g s1.mem.lss from H _ (.inl rfl)
  induction hrun with
  | nil =>
    rintro g (hg | hg)
    · subst hg; exact ⟨[], [], _, rfl, .nil, holds_load _⟩
    · cases hg
  | @snoc tr s h e he ih =>
    have old : ∀ g, s.Pending g → ∃ tr1 tr2 s1, tr ++ [(e, (s.step C cfg e).1)] = tr1 ++ tr2 ∧
        DRun C cfg ok (DState.boot f) tr1 s1 ∧ Holds g s1.mem.lss := by
      intro g hg
      obtain ⟨tr1, tr2, s1, h1, h2, h3⟩ := ih g hg
      exact ⟨tr1, tr2 ++ [(e, (s.step C cfg e).1)], s1, by rw [h1, List.append_assoc], h2, h3⟩
    intro g hg
    cases e with
    | op o =>
      refine old g ?_
      rcases dstep_op (C := C) (cfg := cfg) s o with ⟨_, hs⟩ | ⟨_, _, hs⟩ | ⟨_, hnp, hs⟩
      · rw [hs] at hg; exact hg
      · rw [hs] at hg
        rcases hg with hg | hg
        · exact .inl hg
        · cases hg
      · rw [hs] at hg
        rcases hg with hg | hg
        · exact .inl hg
        · exact .inr (marshalled_spawn.1 hg)
    | marshal i =>
      rcases pending_marshal hg with hg | rfl
      · exact old g hg
      · exact ⟨tr, _, s, rfl, h, holds_persist _⟩
    | write i => exact old g (pending_write hg)
    | restart =>
      rcases hg with hg | hg
      · exact old g (.inl hg)
      · cases hg

/-- C38, partial (marshalling as one step): the watermark in the file is never above the one in memory, whatever the
scheduling and however often the process restarts. -/
theorem C38_not_ahead_partial (ok : DState → DEv → Prop) (f : PFile) (s : DState)
    (tr : List (DEv × Option (Out CosResp))) (hrun : DRun C cfg ok (DState.boot f) tr s) :
    s.file.hrs ≼ s.mem.lss.hrs :=
  (fileInv_run kept_record (fileInv_boot (kept_record (C := C) (cfg := cfg) (ok := ok)) f) hrun _ (.inl rfl)).1

/-- C38: loading a saved file gives back the same fields, with a cache that contains just that block. -/
theorem C38_load (l : SignState) :
    Holds l.persist l.persist.load ∧ l.persist.load.height = l.height ∧ l.persist.load.round = l.round ∧
    l.persist.load.step = l.step ∧ l.persist.load.ephemeralPublic.bytes = l.ephemeralPublic.bytes ∧
    l.persist.load.signature.bytes = l.signature.bytes ∧ l.persist.load.signBytes.bytes = l.signBytes.bytes ∧
    (∀ k r, l.persist.load.cache k = some r ↔
      k = l.hrs ∧ r = ⟨l.height, l.round, l.step, l.persist.load.signature, l.persist.load.signBytes⟩) := by
  refine ⟨holds_load _, rfl, rfl, rfl, by simp [SignState.persist, PFile.load, SignState.ofLoaded],
    by simp [SignState.persist, PFile.load, SignState.ofLoaded],
    by simp [SignState.persist, PFile.load, SignState.ofLoaded], fun k r => ?_⟩
  simp only [PFile.load, SignState.ofLoaded, SignState.persist, SignState.hrs]
  by_cases h : k = ⟨l.height, l.round, l.step⟩
  · simp [h, eq_comm]
  · simp [h]

/-- The histories above have the file strictly behind, and up to date. -/
example : (dexec toy toyCfg (DState.boot emptyFile) [] staleLife).2.file.height = 7 ∧
    (dexec toy toyCfg (DState.boot emptyFile) [] staleLife).2.mem.lss.height = 8 := by decide +kernel

example : (⟨7, 1, 3, none, some [1], some []⟩ : PFile) ≠ (⟨7, 1, 3, none, some [1], none⟩ : PFile) ∧
    (SignState.ofLoaded 7 1 3 none (some [1]) (some [])).persist = ⟨7, 1, 3, none, some [1], none⟩ := by decide +kernel

/-- A process with watermark (4,9,2), in the file too, in which nothing is going on. -/
def quiet : MState :=
  { mem := ⟨4, 9, 2, none, none, none⟩, todo := [], jobs := 0, read := 0, buf := ⟨0, 0, 0, none, none, none⟩,
    file := ⟨4, 9, 2, none, none, none⟩ }

/-- C38 (full statement) is false with marshalling that reads the fields one by one, as the code does without the
lock: two saves — to (5,9,2) and then (6,0,1) — can leave (6,9,2) in the file, a state the process never had, and
above the watermark in memory, with no write outstanding from the first save. -/
theorem C38_torn_fails : ∃ (ms : List MMove) (s : MState), quiet.run ms = some s ∧ s.todo = [] ∧
    s.mem = ⟨6, 0, 1, none, none, none⟩ ∧ s.file = ⟨6, 9, 2, none, none, none⟩ := by
  refine ⟨[.save ⟨5, 9, 2, none, none⟩, .assign, .assign, .assign, .assign, .assign,
    .save ⟨6, 0, 1, none, none⟩, .assign, .read, .read, .read, .read, .read, .read, .assign, .assign, .assign, .assign,
    .write], _, rfl, ?_, ?_, ?_⟩ <;> rfl

/-- A schedule in which no `Save` and no marshalling overlap: a save begins only while no goroutine is in the middle of
reading the fields, and fields are read only while no save is running. -/
inductive Orderly (s0 : MState) : List MMove → MState → Prop where
  | nil : Orderly s0 [] s0
  | snoc {ms : List MMove} {s t : MState} {m : MMove} (h : Orderly s0 ms s) (hs : s.step m = some t)
      (hsave : ∀ r, m = .save r → s.read = 0) (hread : m = .read → s.todo = []) : Orderly s0 (ms ++ [m]) t

/-- The first `n` fields of the buffer are those of the memory. -/
def ReadUpTo (n : Nat) (buf mem : PFile) : Prop :=
  (0 < n → buf.height = mem.height) ∧ (1 < n → buf.round = mem.round) ∧ (2 < n → buf.step = mem.step) ∧
  (3 < n → buf.ephemeralPublic = mem.ephemeralPublic) ∧ (4 < n → buf.signature = mem.signature) ∧
  (5 < n → buf.signBytes = mem.signBytes)

theorem readUpTo_step (n : Nat) (buf mem : PFile) (hn : n < 6) (h : ReadUpTo n buf mem) :
    ReadUpTo (n + 1) ((readField mem n).apply buf) mem := by
  obtain ⟨h0, h1, h2, h3, h4, h5⟩ := h
  match n, hn with
  | 0, _ => simp [ReadUpTo, readField, Assign.apply]
  | 1, _ => simp [ReadUpTo, readField, Assign.apply, h0]
  | 2, _ => simp [ReadUpTo, readField, Assign.apply, h0, h1]
  | 3, _ => simp [ReadUpTo, readField, Assign.apply, h0, h1, h2]
  | 4, _ => simp [ReadUpTo, readField, Assign.apply, h0, h1, h2, h3]
  | 5, _ => simp [ReadUpTo, readField, Assign.apply, h0, h1, h2, h3, h4]

/-- C38, partial (fields read one by one): if saving and marshalling never overlap, the file always holds all the fields
of a state the process had between two saves. Missing: overlaps, see `C38_torn_fails`. -/
theorem C38_fields_partial (s0 : MState) (h0 : s0.todo = []) (hr : s0.read = 0) (hf : s0.file = s0.mem) (ms : List MMove)
    (s : MState) (h : Orderly s0 ms s) :
    ∃ ms1 ms2 s1, ms = ms1 ++ ms2 ∧ Orderly s0 ms1 s1 ∧ s1.todo = [] ∧ s.file = s1.mem := by
  suffices H : (∃ ms1 ms2 s1, ms = ms1 ++ ms2 ∧ Orderly s0 ms1 s1 ∧ s1.todo = [] ∧ s.file = s1.mem) ∧
      (0 < s.read → s.todo = [] ∧ ReadUpTo s.read s.buf s.mem) from H.1
  induction h with
  | nil => exact ⟨⟨[], [], s0, rfl, .nil, h0, hf⟩, by omega⟩
  | @snoc ms s t m h hs hsave hread ih =>
    obtain ⟨⟨ms1, ms2, s1, e1, e2, e3, e4⟩, ihr⟩ := ih
    have keep : t.file = s.file →
        ∃ ms1 ms2 s1, ms ++ [m] = ms1 ++ ms2 ∧ Orderly s0 ms1 s1 ∧ s1.todo = [] ∧ t.file = s1.mem :=
      fun e => ⟨ms1, ms2 ++ [m], s1, by rw [e1, List.append_assoc], e2, e3, e.trans e4⟩
    cases m with
    | save r =>
      simp only [MState.step] at hs
      split at hs
      · simp only [Option.some.injEq] at hs
        subst hs
        exact ⟨keep rfl, by simp only [hsave r rfl]; omega⟩
      · cases hs
    | assign =>
      simp only [MState.step] at hs
      have hne : s.todo ≠ [] := by intro e; rw [e] at hs; cases hs
      have hz : ¬ 0 < s.read := fun hp => hne (ihr hp).1
      split at hs
      · cases hs
      · simp only [Option.some.injEq] at hs
        subst hs
        exact ⟨keep rfl, fun hp => absurd hp hz⟩
      · simp only [Option.some.injEq] at hs
        subst hs
        exact ⟨keep rfl, fun hp => absurd hp hz⟩
    | read =>
      simp only [MState.step] at hs
      split at hs
      · next hc =>
        simp only [Option.some.injEq] at hs
        subst hs
        refine ⟨keep rfl, fun _ => ⟨hread rfl, readUpTo_step _ _ _ hc.2 ?_⟩⟩
        by_cases hp : 0 < s.read
        · exact (ihr hp).2
        · have : s.read = 0 := by omega
          rw [this]; simp [ReadUpTo]
      · cases hs
    | write =>
      simp only [MState.step] at hs
      split at hs
      · next hc =>
        simp only [Option.some.injEq] at hs
        subst hs
        obtain ⟨ht, hb⟩ := ihr (by omega)
        rw [hc.2] at hb
        obtain ⟨b0, b1, b2, b3, b4, b5⟩ := hb
        refine ⟨⟨ms, [.write], s, rfl, h, ht, ?_⟩, by simp⟩
        show s.buf = s.mem
        cases hbuf : s.buf
        cases hmem : s.mem
        rw [hbuf, hmem] at b0 b1 b2 b3 b4 b5
        simp only [PFile.mk.injEq]
        exact ⟨b0 (by omega), b1 (by omega), b2 (by omega), b3 (by omega), b4 (by omega), b5 (by omega)⟩
      · cases hs

/-- C38: a save that is left alone ends up in the file with all its fields; the ephemeral key is the one in memory. -/
theorem C38_alone (m f b : PFile) (r : SSC) (h : m.hrs ≺ r.hrs) :
    MState.run ⟨m, [], 0, 0, b, f⟩ ([.save r] ++ List.replicate 5 .assign ++ List.replicate 6 .read ++ [.write]) =
      some (let g : PFile := ⟨r.height, r.round, r.step, m.ephemeralPublic, r.signature, r.signBytes⟩
        ⟨g, [], 0, 0, g, g⟩) := by
  have h' : m.height < r.height ∨ m.height = r.height ∧ (m.round < r.round ∨ m.round = r.round ∧ m.step < r.step) := h
  simp [List.replicate, MState.run, MState.step, saveAssigns, readField, Assign.apply, h']

theorem MState.run_append (s : MState) (ms ms' : List MMove) : s.run (ms ++ ms') = (s.run ms).bind (·.run ms') := by
  induction ms generalizing s with
  | nil => rfl
  | cons m ms ih =>
    simp only [List.cons_append, MState.run]
    cases s.step m with
    | none => rfl
    | some t => exact ih t

/-- C38 (fields read one by one): whatever has happened, a goroutine that is left alone finishes: it reads the fields it
has not read and replaces the file by what it has read. -/
theorem C38_finishes (s0 : MState) (hr : s0.read = 0) (ms : List MMove) (s : MState) (h : s0.run ms = some s)
    (hj : 0 < s.jobs) :
    s.read ≤ 6 ∧ ∃ t, s.run (List.replicate (6 - s.read) .read ++ [.write]) = some t ∧ t.jobs = s.jobs - 1 ∧
      t.read = 0 ∧ t.file = t.buf ∧ t.mem = s.mem ∧ t.todo = s.todo := by
  have hle : s.read ≤ 6 := by
    clear hj
    induction ms using List.reverseRecOn generalizing s with
    | nil => simp only [MState.run, Option.some.injEq] at h; subst h; omega
    | append_singleton ms m ih =>
      rw [MState.run_append] at h
      obtain ⟨s1, h1, h2⟩ := Option.bind_eq_some_iff.1 h
      have := ih s1 h1
      simp only [MState.run, Option.bind_eq_some_iff] at h2
      obtain ⟨s2, h2, h3⟩ := h2
      simp only [Option.some.injEq] at h3; subst h3
      cases m <;> simp only [MState.step] at h2 <;> (repeat' split at h2) <;>
        simp only [reduceCtorEq, Option.some.injEq] at h2 <;> subst h2 <;> simp only <;> omega
  refine ⟨hle, ?_⟩
  have reads : ∀ (n : Nat) (s : MState), 0 < s.jobs → s.read + n = 6 →
      ∃ t, s.run (List.replicate n .read) = some t ∧ t.jobs = s.jobs ∧ t.read = 6 ∧ t.mem = s.mem ∧ t.todo = s.todo := by
    intro n
    induction n with
    | zero => intro s _ h; exact ⟨s, rfl, rfl, by omega, rfl, rfl⟩
    | succ n ih =>
      intro s hj h
      simp only [List.replicate_succ, MState.run, MState.step]
      rw [if_pos ⟨hj, by omega⟩]
      obtain ⟨t, h1, h2, h3, h4, h5⟩ := ih { s with buf := (readField s.mem s.read).apply s.buf, read := s.read + 1 } hj
        (by simp only; omega)
      exact ⟨t, h1, h2, h3, h4, h5⟩
  obtain ⟨t, h1, h2, h3, h4, h5⟩ := reads (6 - s.read) s hj (by omega)
  rw [MState.run_append, h1]
  simp only [Option.bind_some, MState.run, MState.step]
  rw [if_pos ⟨by omega, h3⟩]
  exact ⟨_, rfl, by simp only; omega, rfl, rfl, h4, h5⟩

/-- C38 (fields read one by one): between saves the watermark in memory never goes down, and a save that begins is above
it and not in the middle of another one. -/
theorem C38_memory (s0 : MState) (h0 : s0.todo = []) (ms : List MMove) (s : MState) (h : s0.run ms = some s)
    (hs : s.todo = []) :
    s0.mem.hrs ≼ s.mem.hrs ∧ ∀ r, (∃ t, s.step (.save r) = some t) ↔ s.mem.hrs ≺ r.hrs := by
  refine ⟨?_, fun r => ?_⟩
  · have key : ∀ (ms : List MMove) (s : MState), s0.run ms = some s →
        (s.todo = [] ∧ s0.mem.hrs ≼ s.mem.hrs) ∨
        ∃ (r : SSC) (m : PFile), s0.mem.hrs ≼ m.hrs ∧ m.hrs ≺ r.hrs ∧ ∃ pre, pre ++ s.todo = saveAssigns r ∧
          s.todo ≠ [] ∧ s.mem = pre.foldl Assign.apply m := by
      intro ms
      induction ms using List.reverseRecOn with
      | nil => intro s h; simp only [MState.run, Option.some.injEq] at h; subst h; exact .inl ⟨h0, .inl rfl⟩
      | append_singleton ms m ih =>
        intro s h
        rw [MState.run_append] at h
        obtain ⟨s1, h1, h2⟩ := Option.bind_eq_some_iff.1 h
        simp only [MState.run, Option.bind_eq_some_iff] at h2
        obtain ⟨s2, h2, h3⟩ := h2
        simp only [Option.some.injEq] at h3; subst h3
        have ih := ih s1 h1
        cases m with
        | save r =>
          simp only [MState.step] at h2
          split at h2
          · next hc =>
            rw [Option.some.injEq] at h2; subst h2
            rcases ih with ⟨_, g⟩ | ⟨_, _, _, _, _, _, g, _⟩
            · exact .inr ⟨r, s1.mem, g, hc.2, [], rfl, by simp [saveAssigns], rfl⟩
            · exact absurd hc.1 g
          · cases h2
        | read =>
          simp only [MState.step] at h2
          split at h2
          · rw [Option.some.injEq] at h2; subst h2; exact ih
          · cases h2
        | write =>
          simp only [MState.step] at h2
          split at h2
          · rw [Option.some.injEq] at h2; subst h2; exact ih
          · cases h2
        | assign =>
          simp only [MState.step] at h2
          rcases ih with ⟨g, _⟩ | ⟨r, m, g1, g2, pre, g3, g4, g5⟩
          · rw [g] at h2; cases h2
          · split at h2
            · cases h2
            · next a htodo =>
              rw [Option.some.injEq] at h2; subst h2
              refine .inl ⟨rfl, .inr ?_⟩
              simp only
              have hpre : a.apply s1.mem = (saveAssigns r).foldl Assign.apply m := by
                rw [← g3, htodo, List.foldl_append, g5]; rfl
              rw [hpre]
              have : ((saveAssigns r).foldl Assign.apply m).hrs = r.hrs := rfl
              rw [this]
              exact HRS.lt_of_le_of_lt g1 g2
            · next a rest hne htodo =>
              rw [Option.some.injEq] at h2; subst h2
              refine .inr ⟨r, m, g1, g2, pre ++ [a], ?_, ?_, ?_⟩
              · rw [List.append_assoc, ← g3, htodo]; rfl
              · exact fun hr => hne hr
              · simp only; rw [g5, List.foldl_append]; rfl
    rcases key ms s h with ⟨_, g⟩ | ⟨_, _, _, _, _, _, g, _⟩
    · exact g
    · exact absurd hs g
  · simp only [MState.step, hs, true_and]
    constructor
    · rintro ⟨t, ht⟩
      split at ht
      · next hc => exact hc
      · cases ht
    · intro hlt
      have hlt' : s.mem.height < r.height ∨ s.mem.height = r.height ∧ (s.mem.round < r.round ∨ s.mem.round = r.round ∧
        s.mem.step < r.step) := hlt
      exact ⟨_, if_pos hlt'⟩

/-- Both apply to the schedule of `C38_torn_fails`, cut off in the middle of the marshalling. -/
example : (quiet.run ([.save ⟨5, 9, 2, none, none⟩] ++ List.replicate 5 .assign ++ [.read, .read])).map
    (fun s => (s.todo == [], s.jobs, s.read, s.mem.hrs)) = some (true, 1, 2, ⟨5, 9, 2⟩) := by decide +kernel

example : Orderly quiet ([.save ⟨5, 9, 2, none, none⟩] ++ [.assign]) { quiet with
    mem := ⟨5, 9, 2, none, none, none⟩, todo := (saveAssigns ⟨5, 9, 2, none, none⟩).tail } :=
  .snoc (.snoc .nil (m := .save ⟨5, 9, 2, none, none⟩) rfl (fun _ _ => rfl) (fun h => by cases h)) rfl
    (fun _ h => by cases h) (fun h => by cases h)

end Horcrux
