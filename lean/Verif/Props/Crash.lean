import Verif.Lemmas.Crash
import Verif.Props.Lives
/-
Properties C36 and C66 again: exactly which crashes make a cosigner forget what it signed.
-/
namespace Horcrux
open Spec

theorem unpack_time_i64 {bs : Bytes} {k : HRST} (h : unpackHRST bs = .ok k) : IsI64 k.timestamp := by
  unfold unpackHRST at h
  repeat' split at h
  all_goals first | (cases h; done) | (simp only [Out.ok.injEq] at h; subst h; exact isI64_i64 _)

/-! ### C36 -/

/-- C36, partial: over any number of lives of a cosigner process, with any requests and any scheduling of its background
writes, if whenever the process dies the watermark in its file is not below anything it has released, then two share
signatures ever released for one height, round and step are over sign bytes that differ in nothing but the time. This
asks less than `C36_partial`: records that no released signature depends on may be lost, and the file need not hold the
newest record. It cannot be weakened further (`C36_needed`). -/
theorem C36_covered_partial (C : Crypto) (cfg : CosignerCfg) (f : PFile) (s : DState)
    (tr : List (DEv × Option (Out CosResp))) (hrun : DRun C cfg anything (DState.boot f) tr s)
    (hc : CrashesCovered C cfg (DState.boot f) tr)
    (bs bs' : Bytes) (r r' : SignRes) (k k' : HRST)
    (h : (DEv.op (.sign bs), some (Out.ok (CosResp.signed r))) ∈ tr)
    (h' : (DEv.op (.sign bs'), some (Out.ok (CosResp.signed r'))) ∈ tr)
    (hu : unpackHRST bs = .ok k) (hu' : unpackHRST bs' = .ok k')
    (hsame : k.height = k'.height ∧ k.round = k'.round ∧ k.step = k'.step) :
    DifferOnlyByTime k.step bs bs' :=
  covered_no_conflict (drun_anything hrun) hc h h' hu hu'
    (by unfold HRST.hrs; rw [hsame.1, hsame.2.1, hsame.2.2])

/-- C36: the condition of `C36_partial` implies that of `C36_covered_partial`. -/
theorem C36_recorded_covered (C : Crypto) (cfg : CosignerCfg) (f : PFile) (s : DState)
    (tr : List (DEv × Option (Out CosResp))) (hrun : DRun C cfg CrashesWhenRecorded (DState.boot f) tr s) :
    CrashesCovered C cfg (DState.boot f) tr :=
  recorded_covered hrun

/-- C36: the condition is needed. Let an honest cosigner of a correctly dealt key have any history whatever, and let the
watermark in its file be below a share signature it has released. If it dies now, then any sign bytes for that height,
round and step, conflicting or not, are signed after the restart: two calls are enough, and no other cosigner has to
take part. -/
theorem C36_needed {C : Crypto} {F G : Type} [Field F] [AddCommGroup G] [Module F G] (L : Lawful C F G)
    (pair : Bytes → Bytes → Prop) (n t : Nat) (cfg : Nat → CosignerCfg) (x : F) (kc : List F) (rsaPub : Nat → Bytes)
    (hS : Setup C L pair n t cfg x kc rsaPub) (p : Nat) (hp : 1 ≤ p ∧ p ≤ n)
    (f : PFile) (s : DState) (tr : List (DEv × Option (Out CosResp)))
    (hrun : DRun C (cfg p) anything (DState.boot f) tr s) (bs : Bytes) (r : SignRes) (k : HRST)
    (hrel : (DEv.op (.sign bs), some (Out.ok (CosResp.signed r))) ∈ tr) (_hu : unpackHRST bs = .ok k)
    (hlow : s.file.height < k.height ∨ s.file.height = k.height ∧
      (s.file.round < k.round ∨ s.file.round = k.round ∧ s.file.step < k.step))
    (bs' : Bytes) (k' : HRST) (hu' : unpackHRST bs' = .ok k')
    (hsame : k.height = k'.height ∧ k.round = k'.round ∧ k.step = k'.step)
    (rnd : Rand) (sec : Bytes) (hrnd : rnd.secret = some sec) (hsec : sec.length = 32) :
    ∃ (part : SecretPart) (r' : SignRes) (tr' : List (DEv × Option (Out CosResp))) (s' : DState),
      tr' = tr ++ [(.restart, none),
          (.op (.getPart ⟨p, k'.height, k'.round, k'.step, GoTime.ofUnixNano k'.timestamp⟩ rnd), some (.ok (.part part))),
          (.op (.sign bs'), some (.ok (.signed r')))] ∧
      DRun C (cfg p) anything (DState.boot f) tr' s' ∧
      (DEv.op (.sign bs), some (Out.ok (CosResp.signed r))) ∈ tr' ∧
      (DEv.op (.sign bs'), some (Out.ok (CosResp.signed r'))) ∈ tr' ∧ r'.signature ≠ none := by
  have hk : IsI64 k'.timestamp := unpack_time_i64 hu'
  have hm : ∃ s1, metaFor C (cfg p) (CState.start s.file.load) k' k' rnd = some (0, s1) ∧ s1.hrsMeta k' = some 0 ∧
      s1.lss = s.file.load ∧ s1.heap[0]? = some ⟨sec, C.dealShares sec rnd.deal t n,
        slotsOf L n (fun _ => sec) (fun _ => L.coeffs rnd.deal t) p []⟩ := by
    unfold metaFor dealSharesFor
    simp only [CState.start]
    rw [hrnd]
    simp only
    refine ⟨_, rfl, ?_, rfl, ?_⟩
    · simp [CState.setMeta]
    · simp [CState.setMeta, slotsOf_nil, hS.total p hp.1 hp.2, hS.threshold p hp.1 hp.2]
  obtain ⟨s1, hm, he, hlss, hrec⟩ := hm
  obtain ⟨part, s2, g1, _, g3, g4⟩ := getPart_honest hS hp.1 hp.2 hp.1 hp.2 hk hsec (.inl rfl) hm he hrec
  have hlt : s2.lss.hrs ≺ k'.hrs := by
    rw [g3, hlss]
    unfold Spec.HRS.lt HRST.hrs
    rw [← hsame.1, ← hsame.2.1, ← hsame.2.2]
    exact hlow
  have g4' : Rec s2 k' (fullRecord L n t p (fun _ => sec) (fun _ => rnd.deal) [p]) := g4
  obtain ⟨res, s3, e1, _, e3, _⟩ := sign_honest hS hp.1 hp.2 hu' hlt g4'
  have r1 := hrun.snoc .restart trivial
  have q1 : s.step C (cfg p) .restart = (none, DState.boot s.file) := rfl
  rw [q1] at r1
  have r2 := r1.snoc (.op (.getPart ⟨p, k'.height, k'.round, k'.step, GoTime.ofUnixNano k'.timestamp⟩ rnd)) trivial
  have q2 : (DState.boot s.file).step C (cfg p)
      (.op (.getPart ⟨p, k'.height, k'.round, k'.step, GoTime.ofUnixNano k'.timestamp⟩ rnd)) =
      (some (.ok (.part part)), { DState.boot s.file with mem := s2, jobs := spawn (DState.boot s.file).mem s2 [] }) := by
    simp only [DState.step, DState.boot, Bool.true_eq_false, if_false, CState.step, g1, Out.map]
  rw [q2] at r2
  have r3 := r2.snoc (.op (.sign bs')) trivial
  have q3 : ({ DState.boot s.file with mem := s2, jobs := spawn (DState.boot s.file).mem s2 [] } : DState).step C (cfg p)
      (.op (.sign bs')) = (some (.ok (.signed res)),
        { DState.boot s.file with mem := s3, jobs := spawn s2 s3 (spawn (DState.boot s.file).mem s2 []) }) := by
    simp only [DState.step, DState.boot, Bool.true_eq_false, if_false, CState.step, e1, Out.map]
  rw [q3] at r3
  refine ⟨part, res, _, { DState.boot s.file with mem := s3, jobs := spawn s2 s3 (spawn (DState.boot s.file).mem s2 []) },
    rfl, by simpa using r3, List.mem_append_left _ hrel, by simp, by rw [e3]; simp⟩

/-- The condition, evaluated along the way. -/
def ccheck (C : Crypto) (cfg : CosignerCfg) (s : DState) (acc : List (DEv × Option (Out CosResp))) : List DEv → Bool
  | [] => true
  | e :: es =>
    (e != .restart || acc.all fun x => match x with
      | (.op (.sign b), some (.ok (.signed _))) => match unpackHRST b with
        | .ok k => decide (¬ s.file.hrs ≺ k.hrs)
        | _ => true
      | _ => true) &&
    ccheck C cfg (s.step C cfg e).2 (acc ++ [(e, (s.step C cfg e).1)]) es

theorem ccheck_covered {C : Crypto} {cfg : CosignerCfg} {s0 s : DState} {acc : List (DEv × Option (Out CosResp))}
    (h0 : DRun C cfg (fun _ _ => True) s0 acc s) (hc : CrashesCovered C cfg s0 acc) (es : List DEv)
    (h : ccheck C cfg s acc es = true) : CrashesCovered C cfg s0 (dexec C cfg s acc es).1 := by
  induction es generalizing acc s with
  | nil => exact hc
  | cons e es ih =>
    simp only [ccheck, Bool.and_eq_true] at h
    refine ih (h0.snoc e trivial) (covered_snoc h0 hc ?_) h.2
    rintro rfl bs r k hm hu
    have hall : (acc.all fun x => match x with
      | (.op (.sign b), some (.ok (.signed _))) => match unpackHRST b with
        | .ok k => decide (¬ s.file.hrs ≺ k.hrs)
        | _ => true
      | _ => true) = true := by simpa using h.1
    have := List.all_eq_true.1 hall _ hm
    simp only [hu, decide_eq_true_eq] at this
    exact this

/-- A history in which the process dies with its newest record lost but everything released covered: `b1` is signed and
written; raft brings the record of height 8, and before that is written the process dies. It comes back at height 7,
signs height 8, and refuses another block of height 7. -/
def lostLife : List DEv :=
  ready1 ++ [.op (.sign b1), .marshal 0, .write 0, .op (.sign b1), .op (.saveLSS ⟨8, 0, 3, some [1], some b3⟩),
    .restart] ++ ready1 ++ [.op (.sign b1), .op (.sign b1x)] ++ ready3 ++ [.op (.sign b3)]

def anyB (_ : DState) (_ : DEv) : Bool := true

/-- That history meets the condition of `C36_covered_partial`, and not that of `C36_partial`. -/
example : ∃ tr s r r', DRun toy toyCfg anything (DState.boot emptyFile) tr s ∧
    CrashesCovered toy toyCfg (DState.boot emptyFile) tr ∧ DReleased tr b1 r ∧ DReleased tr b3 r' ∧
    dcheck toy toyCfg (fun s e => e != .restart || decide (s.file.height = s.mem.lss.height))
      (DState.boot emptyFile) lostLife = false := by
  have hr := dexec_run (q := anyB) (ok := anything) (fun _ _ _ => trivial)
    (DRun.nil (C := toy) (cfg := toyCfg) (s0 := DState.boot emptyFile)) lostLife (by decide +kernel)
  have hc := ccheck_covered (DRun.nil (C := toy) (cfg := toyCfg) (s0 := DState.boot emptyFile))
    (by intro tr1 a tr2 s1 h; simp at h) lostLife (by decide +kernel)
  obtain ⟨r, h1⟩ := dreleasedB_spec (tr := (dexec toy toyCfg (DState.boot emptyFile) [] lostLife).1) (bs := b1)
    (by decide +kernel)
  obtain ⟨r', h2⟩ := dreleasedB_spec (tr := (dexec toy toyCfg (DState.boot emptyFile) [] lostLife).1) (bs := b3)
    (by decide +kernel)
  exact ⟨_, _, r, r', hr, hc, h1, h2, by decide +kernel⟩

/-- Cosigner 2 of the 2-of-3 cluster after signing `b1`, its file not yet written: the hypotheses of `C36_needed`. -/
def unwritten : List DEv :=
  [.op (.getPart ⟨1, 7, 1, 3, GoTime.ofUnixNano 1600000000000000005⟩ (trnd 2 1)), .op (.sign b1), .marshal 0]

example : ∃ tr s r, DRun ftoy (fcfg 2) anything (DState.boot emptyFile) tr s ∧ DReleased tr b1 r ∧
    s.file.height < 7 ∧ unpackHRST b1 = .ok ⟨7, 1, 3, 1600000000000000005⟩ ∧
    ∃ part r' tr' s', tr' = tr ++ [(DEv.restart, none),
          (.op (.getPart ⟨2, 7, 1, 3, GoTime.ofUnixNano 1600000000000000005⟩ (trnd 4 1)), some (.ok (.part part))),
          (.op (.sign b1x), some (.ok (.signed r')))] ∧
      DRun ftoy (fcfg 2) anything (DState.boot emptyFile) tr' s' ∧ DReleased tr' b1 r ∧ DReleased tr' b1x r' := by
  have hr := dexec_run (q := anyB) (ok := anything) (fun _ _ _ => trivial)
    (DRun.nil (C := ftoy) (cfg := fcfg 2) (s0 := DState.boot emptyFile)) unwritten (by decide +kernel)
  obtain ⟨r, h1⟩ := dreleasedB_spec (tr := (dexec ftoy (fcfg 2) (DState.boot emptyFile) [] unwritten).1) (bs := b1)
    (by decide +kernel)
  have hlow : (dexec ftoy (fcfg 2) (DState.boot emptyFile) [] unwritten).2.file.height < 7 := by decide +kernel
  obtain ⟨part, r', tr', s', e1, e2, e3, e4, _⟩ := C36_needed ftoyLawful _ 3 2 fcfg 42 [7] _ fsetup 2 (by decide) _ _ _ hr b1 r
    _ h1 unpack_b1 (.inl hlow) b1x _ unpack_b1x ⟨rfl, rfl, rfl⟩ (trnd 4 1) _ rfl (by decide +kernel)
  exact ⟨_, _, r, hr, h1, hlow, unpack_b1, part, r', tr', s', e1, e2, e3, e4⟩

/-! ### C66 -/

/-- C66, partial: `n` cosigners of which at most `f` are faulty, where besides arbitrary behaviour it counts as faulty to
die, ever, while the watermark in the state file is below something already released. With `2t > n + f`, over any number
of lives of all processes, two full signatures for one height, round and step are over sign bytes that differ in nothing
but the time. This asks less than `C66_partial`. -/
theorem C66_covered_partial (C : Crypto) (cfg : Nat → CosignerCfg) (n t f : Nat) (h : n + f < 2 * t) (faulty : Finset Nat)
    (hf : faulty.card ≤ f) (file : Nat → PFile) (c : Nat → DState) (tr : List LivesEv)
    (hrun : Lives C cfg (fun _ _ _ => True) (fun i => DState.boot (file i)) tr c)
    (hc : ∀ i, i ∉ faulty → CrashesCovered C (cfg i) (DState.boot (file i)) (ofNode i tr))
    (pub pub' bs bs' sig sig' : Bytes) (k k' : HRST) (hu : unpackHRST bs = .ok k) (hu' : unpackHRST bs' = .ok k')
    (hsame : k.height = k'.height ∧ k.round = k'.round ∧ k.step = k'.step)
    (hfull : FullSignatureEver C n t faulty tr pub bs sig) (hfull' : FullSignatureEver C n t faulty tr pub' bs' sig') :
    DifferOnlyByTime k.step bs bs' := by
  obtain ⟨i, hi, r, r', hr, hr'⟩ := full_common h hf hfull hfull'
  exact C36_covered_partial C (cfg i) (file i) (c i) (ofNode i tr) (lives_proj hrun i) (hc i hi) bs bs' r r' k k' hr hr' hu
    hu' hsame

/-- The two full signatures in different lives meet these conditions too. -/
example : ∃ tr c sig sig', Lives ftoy fcfg (fun _ _ _ => True) fboot tr c ∧
    (∀ i, CrashesCovered ftoy (fcfg i) (DState.boot emptyFile) (ofNode i tr)) ∧
    FullSignatureEver ftoy 3 2 ∅ tr (fsc 42) b1 sig ∧ FullSignatureEver ftoy 3 2 ∅ tr (fsc 42) b2 sig' := by
  have hr := lexec_run (C := ftoy) (cfg := fcfg) (ok := fun _ s e => CrashesWhenIdle s e ∧ WritesInOrder s e) (q := idleB)
    (fun _ s e h => idleB_spec s e h) (.nil (c0 := fboot)) goodLives (by decide +kernel)
  have hr' := lexec_run (C := ftoy) (cfg := fcfg) (ok := fun _ _ _ => True) (q := anyB)
    (fun _ _ _ _ => trivial) (.nil (c0 := fboot)) goodLives (by decide +kernel)
  obtain ⟨s1, h1⟩ := isOkSig_spec (o := assemble ftoy 2 (fsc 42) b1
    ((List.range 3).map fun i => if i + 1 ∈ [1, 2] then (shareOver (lexec ftoy fcfg fboot [] goodLives).1 (i + 1) b1).1 else [])
      (shareOver (lexec ftoy fcfg fboot [] goodLives).1 1 b1).2) (by decide +kernel)
  obtain ⟨s2, h2⟩ := isOkSig_spec (o := assemble ftoy 2 (fsc 42) b2
    ((List.range 3).map fun i => if i + 1 ∈ [2, 3] then (shareOver (lexec ftoy fcfg fboot [] goodLives).1 (i + 1) b2).1 else [])
      (shareOver (lexec ftoy fcfg fboot [] goodLives).1 3 b2).2) (by decide +kernel)
  refine ⟨_, _, _, _, hr', fun i => recorded_covered (s := (lexec ftoy fcfg fboot [] goodLives).2 i) ?_,
    fullSignature_of _ _ h1, fullSignature_of _ _ h2⟩
  have hp : DRun ftoy (fcfg i) (fun s e => CrashesWhenIdle s e ∧ WritesInOrder s e) (DState.boot emptyFile)
      (ofNode i (lexec ftoy fcfg fboot [] goodLives).1) ((lexec ftoy fcfg fboot [] goodLives).2 i) := lives_proj hr i
  have hp' : DRun ftoy (fcfg i) (fun s e => CrashesWhenRecorded s e ∧ WritesInOrder s e) (DState.boot emptyFile)
      (ofNode i (lexec ftoy fcfg fboot [] goodLives).1) ((lexec ftoy fcfg fboot [] goodLives).2 i) := by
    refine hp.strengthen (fun tr s e hr he => ⟨?_, he.2⟩)
    intro hre
    obtain ⟨ha, hj⟩ := he.1 hre
    exact idle_related kept_record (fun _ _ h => h.2) hr ha hj
  exact hp'.mono (fun _ _ h => h.1)

end Horcrux
