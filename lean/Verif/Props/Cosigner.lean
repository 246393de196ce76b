import Verif.Lemmas.Toy
import Verif.Props.Wire
/-
Properties C09–C18 and C58: the local cosigner over arbitrary runs.
-/
namespace Horcrux
open Spec

variable (C : Crypto) (cfg : CosignerCfg)

/-! ### Concrete material for the examples -/

/-- A precommit for a block, and the same precommit at a later time. -/
def vote1 : Vote := sampleVote
def vote2 : Vote := { sampleVote with timestamp := ⟨1600000001, 0⟩ }

def bytesOf : Out Bytes → Bytes
  | .ok b => b
  | _ => []

def b1 : Bytes := bytesOf (voteSignBytes [97] vote1)
def b2 : Bytes := bytesOf (voteSignBytes [97] vote2)
/-- The same vote one height up. -/
def b3 : Bytes := bytesOf (voteSignBytes [97] { vote1 with height := 8 })

/-- Get-part requests of peer 2 for the two times. -/
def get1 : GetPartReq := ⟨2, 7, 1, 3, ⟨1600000000, 5⟩⟩
def get2 : GetPartReq := ⟨2, 7, 1, 3, ⟨1600000001, 0⟩⟩
def get3 : GetPartReq := ⟨2, 8, 1, 3, ⟨1600000000, 5⟩⟩

/-- A part cosigner 2 sends to cosigner 1 (share 32 times `x`), for the block of `get1`. -/
def part2 (x : UInt8) : SetPartReq :=
  { sourceID := 2, ephemeralPublic := some (List.replicate 32 x), encrypted := some (1 :: List.replicate 32 x),
    sourceSig := some ([2] ++ List.replicate 32 x ++ (1 :: List.replicate 32 x)),
    height := 7, round := 1, step := 3, timestamp := ⟨1600000000, 5⟩ }

def toyStart : CState := CState.start .empty

/-- A complete run: hand out parts for two times, receive a part, sign both votes, sign the first one again. -/
def demo : List (CosOp × Out CosResp) × CState :=
  exec toy toyCfg toyStart
    [.getPart get1 (toyRnd 1), .getPart get2 (toyRnd 3), .setPart (part2 5) (toyRnd 7), .sign b1, .sign b2, .sign b1]

theorem demo_run : Run toy toyCfg toyStart demo.1 demo.2 := exec_run _ _ _ _ (by decide +kernel)

theorem unpack_b1 : unpackHRST b1 = .ok ⟨7, 1, 3, 1600000000000000005⟩ := by decide +kernel
theorem unpack_b2 : unpackHRST b2 = .ok ⟨7, 1, 3, 1600000001000000000⟩ := by decide +kernel
theorem unpack_b3 : unpackHRST b3 = .ok ⟨8, 1, 3, 1600000000000000005⟩ := by decide +kernel

/-! ### C09 -/

/-- C09, partial: a signing request aborts the process only for sign bytes that are a vote of unknown type
(see `C09_unpack_partial`), or if the stored record has sign bytes but no signature. Missing: those cases. -/
theorem C09_sign_partial (s : CState) (hok : s.Ok) (bs : Bytes) :
    (sign C cfg s bs).1 = .panic ↔
      (decodeProposal bs = none ∧ ∃ v, decodeVote bs = some v ∧ v.type ≠ 1 ∧ v.type ≠ 2) ∨
      (∃ k, unpackHRST bs = .ok k ∧ s.lss.hrs = k.hrs ∧ s.lss.signBytes ≠ none ∧ s.lss.signature = none) := by
  rw [← C09_unpack_partial]
  have hf : ∀ k, (signFresh C cfg s bs k).1 ≠ .panic := by
    intro k
    unfold signFresh
    cases hm : s.hrsMeta k with
    | none => simp
    | some ref =>
      simp only
      have := hok k ref hm
      rw [List.getElem?_eq_getElem this]
      simp only
      split
      · simp
      split
      · simp
      generalize SignState.save _ _ = x
      obtain ⟨e, l⟩ := x
      cases e with
      | none => simp
      | some e => cases e <;> simp
  unfold sign
  cases hu : unpackHRST bs with
  | panic => simp
  | err e => simp
  | ok k =>
    simp only [Out.ok.injEq, reduceCtorEq, false_or, exists_eq_left']
    have hp : s.lss.checkHRS k = .panic ↔
        s.lss.hrs = k.hrs ∧ s.lss.signBytes ≠ none ∧ s.lss.signature = none := by
      rcases s.lss with ⟨sh, sr, ss, eph, sg, sb, c⟩
      rcases k with ⟨kh, kr, ks, kt⟩
      unfold SignState.checkHRS SignState.hrs HRST.hrs
      simp only [HRS.mk.injEq]
      (repeat' split) <;> simp <;> grind
    rw [← hp]
    cases hc : s.lss.checkHRS k with
    | panic => simp
    | err e => simp
    | ok b =>
      cases b with
      | false => simpa using hf k
      | true =>
        simp only
        split
        · simp
        · split
          · simp
          · simpa using hf k

/-- C09 (full statement) is false for a cosigner: in every state, three bytes abort it. -/
theorem C09_sign_fails (s : CState) : ∃ bs, (sign C cfg s bs).1 = .panic :=
  ⟨[2, 34, 0], by unfold sign; rw [C09_unpack_fails]⟩

example : (sign toy toyCfg demo.2 [1, 2, 3]).1 = .err .couldNotUnpack := by decide +kernel

/-! ### C10 -/

/-- C10: in any run of a cosigner, from any state, with any (also malicious) requests interleaved in any way, two
share signatures released for the same height, round and step are over sign bytes that differ in nothing but the
timestamp. -/
theorem C10_no_conflict (s0 s : CState) (tr : List (CosOp × Out CosResp)) (hrun : Run C cfg s0 tr s)
    (bs bs' : Bytes) (r r' : SignRes) (k k' : HRST)
    (h : (CosOp.sign bs, Out.ok (CosResp.signed r)) ∈ tr)
    (h' : (CosOp.sign bs', Out.ok (CosResp.signed r')) ∈ tr)
    (hu : unpackHRST bs = .ok k) (hu' : unpackHRST bs' = .ok k')
    (hsame : k.height = k'.height ∧ k.round = k'.round ∧ k.step = k'.step) :
    DifferOnlyByTime k.step bs bs' := by
  have hk : k.hrs = k'.hrs := by unfold HRST.hrs; rw [hsame.1, hsame.2.1, hsame.2.2]
  suffices H : ∀ tr s, Run C cfg s0 tr s → (CosOp.sign bs, Out.ok (CosResp.signed r)) ∈ tr →
      (CosOp.sign bs', Out.ok (CosResp.signed r')) ∈ tr → DifferOnlyByTime k.step bs bs' from H tr s hrun h h'
  intro tr s hrun
  refine hrun.snoc_induction (P := fun tr _ => (CosOp.sign bs, Out.ok (CosResp.signed r)) ∈ tr →
      (CosOp.sign bs', Out.ok (CosResp.signed r')) ∈ tr → DifferOnlyByTime k.step bs bs') ?_ ?_
  · intro h; cases h
  · intro tr s op out s' hr ih hstep hnp h h'
    have hinv := released_inv (hr.append (.cons hstep hnp (.nil _)))
    rcases mem_snoc h with h1 | h1
    · rcases mem_snoc h' with h2 | h2
      · exact ih h1 h2
      · simp only [Prod.mk.injEq] at h2
        obtain ⟨rfl, rfl⟩ := h2
        have hw := (sign_ge (step_sign hstep) hu').2
        obtain ⟨_, g1⟩ := hinv bs r k h hu
        obtain ⟨_, g2⟩ := hinv bs' r' k' h' hu'
        obtain ⟨c1, e1, d1⟩ := g1 (by rw [hw, hk])
        obtain ⟨c2, e2, d2⟩ := g2 hw.symm
        rw [e1] at e2; cases e2
        rw [← hsame.2.2] at d2
        exact d1.symm.trans d2
    · simp only [Prod.mk.injEq] at h1
      obtain ⟨rfl, rfl⟩ := h1
      have hw := (sign_ge (step_sign hstep) hu).2
      obtain ⟨_, g1⟩ := hinv bs r k h hu
      obtain ⟨_, g2⟩ := hinv bs' r' k' h' hu'
      obtain ⟨c1, e1, d1⟩ := g1 hw.symm
      obtain ⟨c2, e2, d2⟩ := g2 (by rw [hw, hk])
      rw [e1] at e2; cases e2
      rw [← hsame.2.2] at d2
      exact d1.symm.trans d2

/-- The demo run releases two different messages at one height/round/step, which differ by time. -/
example : ∃ r r', (CosOp.sign b1, Out.ok (CosResp.signed r)) ∈ demo.1 ∧
    (CosOp.sign b2, Out.ok (CosResp.signed r')) ∈ demo.1 ∧ b1 ≠ b2 ∧ DifferOnlyByTime 3 b1 b2 := by
  obtain ⟨r, h1, _⟩ := relCheck_spec (tr := demo.1) (i := 3) (bs := b1) (q := fun _ => true) (by decide +kernel)
  obtain ⟨r', h2, _⟩ := relCheck_spec (tr := demo.1) (i := 4) (bs := b2) (q := fun _ => true) (by decide +kernel)
  exact ⟨r, r', h1, h2, by decide +kernel,
    C10_no_conflict _ _ _ _ _ demo_run _ _ _ _ _ _ h1 h2 unpack_b1 unpack_b2 ⟨rfl, rfl, rfl⟩⟩

/-- A vote for another block at the signed height is refused. -/
example : (sign toy toyCfg demo.2
    (bytesOf (voteSignBytes [97] { vote1 with blockID := ⟨List.replicate 32 6, 1, List.replicate 32 6⟩ }))).1
    = .err .differingBlockIDs := by decide +kernel

/-! ### C11 -/

/-- C11: every share signature is released at a height/round/step not below the watermark the run started with, not
below any share signature released earlier in the run, and not below any watermark event accepted earlier. -/
theorem C11_no_regress (s0 s : CState) (tr tr' : List (CosOp × Out CosResp)) (bs : Bytes) (r : SignRes) (k : HRST)
    (hrun : Run C cfg s0 (tr ++ (CosOp.sign bs, Out.ok (CosResp.signed r)) :: tr') s)
    (hu : unpackHRST bs = .ok k) :
    s0.lss.hrs ≼ k.hrs ∧
    (∀ bs1 r1 k1, (CosOp.sign bs1, Out.ok (CosResp.signed r1)) ∈ tr → unpackHRST bs1 = .ok k1 → k1.hrs ≼ k.hrs) ∧
    (∀ ssc, (CosOp.saveLSS ssc, Out.ok CosResp.unit) ∈ tr → ssc.hrs ≼ k.hrs) := by
  obtain ⟨s1, hr1, hr2⟩ := hrun.split
  cases hr2 with
  | cons hstep hnp htail =>
    have hge := (sign_ge (step_sign hstep) hu).1
    refine ⟨HRS.le_trans (run_lss hr1).1 hge, ?_, ?_⟩
    · intro bs1 r1 k1 hm hu1
      exact HRS.le_trans (released_inv hr1 bs1 r1 k1 hm hu1).1 hge
    · intro ssc hm
      refine HRS.le_trans ?_ hge
      obtain ⟨l1, l2, rfl⟩ := List.mem_iff_append.1 hm
      obtain ⟨sa, ha, hb⟩ := hr1.split
      cases hb with
      | cons hst hnp' htl =>
        refine HRS.le_trans ?_ (run_lss htl).1
        rcases step_cases hst with ⟨_, _, e, _⟩ | ⟨_, _, e, _⟩ | ⟨_, _, _, _, _, e, _⟩ | ⟨_, _, _, e, _⟩ |
          ⟨_, e, _⟩ | ⟨ssc', e, rfl, h1, _⟩ <;> first | (cases e; done) | skip
        cases e
        have h2 := h1.1 rfl
        have h3 := (SignState.save_ok_iff _ _).1 h2
        show ssc.hrs ≼ (sa.lss.save ssc).2.hrs
        rw [SignState.save_hrs, if_pos h3]
        exact HRS.le_refl _

/-- The demo run splits at a signature. -/
example : ∃ tr tr' r, demo.1 = tr ++ (CosOp.sign b2, Out.ok (CosResp.signed r)) :: tr' := by
  obtain ⟨r, h, _⟩ := relCheck_spec (tr := demo.1) (i := 4) (bs := b2) (q := fun _ => true) (by decide +kernel)
  obtain ⟨l1, l2, h⟩ := List.mem_iff_append.1 h
  exact ⟨l1, l2, r, h⟩

/-- And a signature below the watermark is refused. -/
example : (sign toy toyCfg (exec toy toyCfg toyStart
    [.getPart get1 (toyRnd 1), .getPart get3 (toyRnd 9), .sign b3]).2 b1).1 = .err .checkHeight := by
  decide +kernel

/-! ### C12 -/

/-- C12, immediate repetition (in every state, also for re-signed timestamps): asking again gives the same share
signature and ephemeral public key and changes no state. -/
theorem C12_immediate (s s' : CState) (bs : Bytes) (r : SignRes) (h : sign C cfg s bs = (.ok r, s')) :
    ∃ r', sign C cfg s' bs = (.ok r', s') ∧ r'.signature = r.signature ∧
      r'.ephemeralPublic = r.ephemeralPublic := by
  rcases sign_ok_cases h with ⟨k, hc⟩ | ⟨k, ref, m, hf⟩
  · rw [hc.state, hc.res]
    rw [hc.res, hc.state] at h
    exact ⟨_, h, rfl, rfl⟩
  · have hsig : ∃ sg, r.signature = some sg := ⟨_, hf.sig⟩
    rcases hf.le with he | hlt
    · -- re-signed timestamp
      obtain ⟨hl, b0, hb0, hne, hd⟩ := hf.again he
      have hcheck : s'.lss.checkHRS k = s.lss.checkHRS k := by rw [hl]; rfl
      have hstep : s.lss.step = k.step := congrArg HRS.step he
      have hc : s.lss.checkHRS k = .ok true := by
        unfold sign at h
        rw [hf.unpack] at h
        simp only at h
        cases hc : s.lss.checkHRS k with
        | panic => rw [hc] at h; simp at h
        | err e => rw [hc] at h; simp at h
        | ok b =>
          cases b with
          | true => rfl
          | false =>
            have := checkHRS_false hc
            rw [he] at this; exact absurd this (HRS.lt_irrefl _)
      have hod : onlyDifferByTimestamp k.step b0 bs = none := (onlyDiffer_iff _ _ _).2 hd
      have hs0 : s.lss.signBytes.bytes = b0 := by rw [hb0]; rfl
      have hs1 : s'.lss.signBytes.bytes = b0 := by rw [hl]; exact hs0
      have hst1 : s'.lss.step = k.step := by rw [hl]; exact hstep
      have e1 : sign C cfg s bs = signFresh C cfg s bs k := by
        unfold sign
        rw [hf.unpack]; simp only; rw [hc]; simp only
        rw [hs0, if_neg hne, hstep, hod]
      have e2 : sign C cfg s' bs = signFresh C cfg s' bs k := by
        unfold sign
        rw [hf.unpack]; simp only; rw [hcheck, hc]; simp only
        rw [hs1, if_neg hne, hst1, hod]
      rw [e1] at h
      have hkk : k.less k = false := by
        cases hl : k.less k with
        | false => rfl
        | true => exact absurd ((less_iff _ _).1 hl) (HRS.lt_irrefl _)
      have hent : s'.hrsMeta k = some ref := by rw [hf.pruned, hkk]; exact hf.entry
      have hrec : s'.heap[ref]? = some m := by rw [hf.heap]; exact hf.record
      -- the second fresh signature succeeds since the first did
      have hok2 : ∃ r2 s2, signFresh C cfg s' bs k = (.ok r2, s2) := by
        unfold signFresh at h ⊢
        rw [hf.entry] at h; rw [hent]
        simp only at h ⊢
        rw [hf.record] at h; rw [hrec]
        simp only at h ⊢
        split at h
        · simp at h
        next h1 =>
        split at h
        · simp at h
        next h2 =>
        rw [if_neg h1, if_neg h2]
        generalize hES : C.addScalars (m.used.map (·.share)) = ES at *
        generalize hEP : C.addElements (m.used.map (·.ephemeralSecretPublicKey)) = EP at *
        have hget : ∀ l : SignState, l.hrs = k.hrs →
            l.getErrorIfLessOrEqual k.height k.round k.step = some (.sameHRS ⟨k.height, k.round, k.step⟩) := by
          intro l hlk
          unfold SignState.hrs HRST.hrs at hlk
          simp only [HRS.mk.injEq] at hlk
          unfold SignState.getErrorIfLessOrEqual
          simp [hlk]
        unfold SignState.save
        simp only
        rw [hget _ (show SignState.hrs { s'.lss with ephemeralPublic := some EP } = k.hrs from hf.hrs)]
        exact ⟨_, _, rfl⟩
      obtain ⟨r2, s2, h2⟩ := hok2
      have hle2 : s'.lss.hrs ≼ k.hrs := .inl hf.hrs
      obtain ⟨ref2, m2, a1, a2, a3, a4, a5, a6, a7, a8, a9, a10, a11⟩ := signFresh_ok C cfg hle2 h2
      rw [hent] at a1; cases a1
      rw [hrec] at a2; cases a2
      have hr2 : r2.ephemeralPublic = r.ephemeralPublic := by rw [a4, hf.eph]
      refine ⟨r2, ?_, by rw [a5, hf.sig], hr2⟩
      rw [e2, h2]
      congr 1
      have hlss : s2.lss = s'.lss := by
        rw [a11 hf.hrs, hr2, ← hf.lssEph]
      have hmeta : s2.hrsMeta = s'.hrsMeta := by
        funext k'
        rw [a7]
        split
        · next hlt => rw [hf.pruned, if_pos hlt]
        · rfl
      obtain ⟨l2, h2', p2⟩ := s2
      obtain ⟨l1, h1', p1⟩ := s'
      simp only at hlss hmeta a6
      rw [hlss, hmeta, a6]
    · -- first signature at this height/round/step: the record answers
      obtain ⟨g1, g2⟩ := hf.advance hlt
      refine ⟨⟨s'.lss.ephemeralPublic, s'.lss.signature, none⟩, ?_, g2, hf.lssEph⟩
      obtain ⟨sg, hsg⟩ := hsig
      have hc : s'.lss.checkHRS k = .ok true := by
        have hh := hf.hrs
        unfold SignState.hrs HRST.hrs at hh
        simp only [HRS.mk.injEq] at hh
        unfold SignState.checkHRS
        simp [hh, g1, g2, hsg]
      unfold sign
      rw [hf.unpack]; simp only; rw [hc]; simp only
      have : s'.lss.signBytes.bytes = bs := by rw [g1]; rfl
      rw [this, if_pos rfl]

/-- The bytes `bs` are the recorded ones of the watermark. -/
def CState.Recorded (s : CState) (bs : Bytes) (k : HRST) : Prop :=
  s.lss.hrs = k.hrs ∧ s.lss.signBytes = some bs ∧ s.lss.signature ≠ none

/-- C12, partial (1): once a signature is the recorded one, repeating its request at any later point while the
watermark is still there changes no state and returns the same signature; and the same ephemeral key provided no
fresh signature was made in between. Missing: the ephemeral key after a re-sign of another timestamp, for which the
claim is false (`C12_resign_fails`), and requests that were themselves timestamp re-signs (`C12_resigned_partial`). -/
theorem C12_recorded_partial (s1 s2 : CState) (tr : List (CosOp × Out CosResp)) (bs : Bytes) (k : HRST)
    (hu : unpackHRST bs = .ok k) (hrec : s1.Recorded bs k) (hrun : Run C cfg s1 tr s2)
    (hw : s2.lss.hrs = k.hrs) :
    ∃ eph, sign C cfg s2 bs = (.ok ⟨eph, s1.lss.signature, none⟩, s2) ∧
      ((∀ bs' r', (CosOp.sign bs', Out.ok (CosResp.signed r')) ∈ tr → r'.nonce = none) →
        eph = s1.lss.ephemeralPublic) := by
  obtain ⟨h1, h2, h3⟩ := hrec
  have hsame := (run_lss hrun).2 (hw.trans h1.symm)
  refine ⟨s2.lss.ephemeralPublic, ?_, ?_⟩
  · have hc : s2.lss.checkHRS k = .ok true := by
      unfold SignState.hrs HRST.hrs at hw
      simp only [HRS.mk.injEq] at hw
      unfold SignState.checkHRS
      cases hsg : s1.lss.signature with
      | none => exact absurd hsg h3
      | some sg => simp [hw, hsame.1, hsame.2, h2, hsg]
    unfold sign
    rw [hu]; simp only; rw [hc]; simp only
    have : s2.lss.signBytes.bytes = bs := by rw [hsame.1, h2]; rfl
    rw [this, if_pos rfl, hsame.2]
  · intro hno
    clear h2 h3 hsame
    induction hrun with
    | nil => rfl
    | cons hstep hnp htail ih =>
      have hm := step_lss hstep
      have hm2 := run_lss htail
      have hws : _ := HRS.le_antisymm (by rw [← hw] at h1; rw [h1]; exact hm2.1) hm.1
      rw [ih hw (hws.trans h1) (fun bs' r' h => hno bs' r' (List.mem_cons_of_mem _ h))]
      rcases step_cases hstep with ⟨_, _, _, hp⟩ | ⟨_, _, _, _, hp⟩ | ⟨_, _, _, _, _, rfl, rfl, hf⟩ |
        ⟨_, _, _, _, _, hc⟩ | ⟨_, _, _, rfl⟩ | ⟨ssc, _, rfl, _⟩
      · rw [hp.lss]
      · rw [hp.lss]
      · have := hno _ _ (List.mem_cons_self ..)
        rw [hf.nonce] at this; cases this
      · rw [hc.state]
      · rfl
      · next sa _ _ _ _ _ _ =>
        by_cases hlt : sa.lss.hrs ≺ ssc.hrs
        · have := SignState.save_hrs sa.lss ssc
          rw [if_pos hlt] at this
          simp only at hws
          rw [this] at hws
          rw [← hws] at hlt; exact absurd hlt (HRS.lt_irrefl _)
        · simp only [SignState.save_err _ _ hlt]

/-- Every first signature at a height/round/step becomes the recorded one. -/
theorem C12_becomes_recorded_partial (s s' : CState) (bs : Bytes) (r : SignRes) (k : HRST)
    (h : sign C cfg s bs = (.ok r, s')) (hu : unpackHRST bs = .ok k) (hnew : s.lss.hrs ≺ k.hrs) :
    s'.Recorded bs k ∧ s'.lss.signature = r.signature ∧ s'.lss.ephemeralPublic = r.ephemeralPublic := by
  rcases sign_ok_cases h with ⟨k', hc⟩ | ⟨k', ref, m, hf⟩
  · have := hc.unpack; rw [hu] at this; cases this
    rw [hc.hrs] at hnew; exact absurd hnew (HRS.lt_irrefl _)
  · have := hf.unpack; rw [hu] at this; cases this
    obtain ⟨g1, g2⟩ := hf.advance hnew
    exact ⟨⟨hf.hrs, g1, by rw [g2, hf.sig]; simp⟩, g2, hf.lssEph⟩

/-- C12 (full statement) is false: after the first signature at a height/round/step, re-signing another timestamp
makes a repetition of the first request return the ephemeral key of the second one with the signature of the first. -/
theorem C12_resign_fails (s s1 s2 : CState) (b b' : Bytes) (r r' : SignRes) (k k' : HRST)
    (hu : unpackHRST b = .ok k) (hu' : unpackHRST b' = .ok k') (hk : k'.hrs = k.hrs)
    (hnew : s.lss.hrs ≺ k.hrs) (hbb : b' ≠ b)
    (h : sign C cfg s b = (.ok r, s1)) (h' : sign C cfg s1 b' = (.ok r', s2)) :
    sign C cfg s2 b = (.ok ⟨r'.ephemeralPublic, r.signature, none⟩, s2) := by
  obtain ⟨hrec, hsig, heph⟩ := C12_becomes_recorded_partial C cfg s s1 b r k h hu hnew
  obtain ⟨eph, e1, _⟩ := C12_recorded_partial C cfg s1 s2 [(.sign b', .ok (.signed r'))] b k hu hrec
    (.cons (by simp only [CState.step, h', Out.map]) (by simp) (.nil _))
    (by have := (sign_ge h' hu').2; rw [this, hk])
  rw [hsig] at e1
  have : s2.lss.ephemeralPublic = r'.ephemeralPublic := by
    rcases sign_ok_cases h' with ⟨k2, hc⟩ | ⟨k2, ref, m, hf⟩
    · have h2 := hc.bytes
      rw [hrec.2.1] at h2
      simp only [Option.some.injEq] at h2
      exact absurd h2.symm hbb
    · exact hf.lssEph
  rcases sign_ok_cases e1 with ⟨k2, hc⟩ | ⟨k2, ref, m, hf⟩
  · have h3 := hc.res
    simp only [SignRes.mk.injEq] at h3
    rw [e1, h3.1, this]
  · have := hf.nonce; cases this

/-- In the demo run the two ephemeral keys differ, so the last answer of the demo mixes two signatures. -/
example :
    (relAt demo.1 3).map (·.1) = some b1 ∧ (relAt demo.1 5).map (·.1) = some b1 ∧
    (relAt demo.1 5).map (·.2.signature) = (relAt demo.1 3).map (·.2.signature) ∧
    (relAt demo.1 5).map (·.2.ephemeralPublic) ≠ (relAt demo.1 3).map (·.2.ephemeralPublic) ∧
    (relAt demo.1 5).map (·.2.ephemeralPublic) = (relAt demo.1 4).map (·.2.ephemeralPublic) := by
  decide +kernel

/-! ### C13 -/

/-- C13, partial (1), any caller: two fresh share signatures made with the same nonce record are at the same height,
round and step and over sign bytes that differ in nothing but the timestamp (and bytes outside the message).
Missing: identity of the sign bytes, which is false (`C13_trailing_fails`). -/
theorem C13_same_block_partial (l : SignState) (s : CState) (tr : List (CosOp × Out CosResp))
    (hrun : Run C cfg (CState.start l) tr s)
    (bs bs' : Bytes) (r r' : SignRes) (k k' : HRST) (ref : Nat) (e e' : Bytes)
    (h : (CosOp.sign bs, Out.ok (CosResp.signed r)) ∈ tr)
    (h' : (CosOp.sign bs', Out.ok (CosResp.signed r')) ∈ tr)
    (hu : unpackHRST bs = .ok k) (hu' : unpackHRST bs' = .ok k')
    (hn : r.nonce = some (ref, e)) (hn' : r'.nonce = some (ref, e')) :
    k.hrs = k'.hrs ∧ DifferOnlyByTime k.step bs bs' := by
  obtain ⟨f, _, hf⟩ := nonce_tag_inv hrun
  have hk : k.hrs = k'.hrs := by
    rw [← (hf bs r k ref e h hu hn).2, ← (hf bs' r' k' ref e' h' hu' hn').2]
  refine ⟨hk, C10_no_conflict C cfg _ s tr hrun bs bs' r r' k k' h h' hu hu' ?_⟩
  unfold HRST.hrs at hk
  simpa only [HRS.mk.injEq] using hk

/-- C13, partial (2), honest callers: if the cosigner hands out its own parts for a block before it receives others'
parts for it, and only sign bytes as produced by a validator are requested, then two fresh share signatures made
with the same nonce record are over identical sign bytes. Missing: malicious callers. -/
theorem C13_honest_partial (l : SignState) (s : CState) (tr : List (CosOp × Out CosResp))
    (hrun : Run C cfg (CState.start l) tr s) (hsched : PartsAfterGet tr)
    (bs bs' : Bytes) (r r' : SignRes) (ref : Nat) (e e' : Bytes)
    (h : (CosOp.sign bs, Out.ok (CosResp.signed r)) ∈ tr)
    (h' : (CosOp.sign bs', Out.ok (CosResp.signed r')) ∈ tr)
    (hb : HonestBytes bs) (hb' : HonestBytes bs')
    (hn : r.nonce = some (ref, e)) (hn' : r'.nonce = some (ref, e')) :
    bs = bs' := by
  have hun : ∀ b rr, (CosOp.sign b, Out.ok (CosResp.signed rr)) ∈ tr → ∃ k, unpackHRST b = .ok k := by
    intro b rr hm
    obtain ⟨l1, l2, rfl⟩ := List.mem_iff_append.1 hm
    obtain ⟨sa, _, hr2⟩ := hrun.split
    cases hr2 with
    | cons hst _ _ =>
      rcases sign_ok_cases (step_sign hst) with ⟨k, hc⟩ | ⟨k, _, _, hf⟩
      · exact ⟨k, hc.unpack⟩
      · exact ⟨k, hf.unpack⟩
  obtain ⟨k, hu⟩ := hun bs r h
  obtain ⟨k', hu'⟩ := hun bs' r' h'
  obtain ⟨f, _, _, hf⟩ := nonce_key_inv hrun hsched
  have hk : k = k' := by rw [← (hf bs r k ref e h hu hn).2, ← (hf bs' r' k' ref e' h' hu' hn').2]
  subst hk
  have hd := (C13_same_block_partial C cfg l s tr hrun bs bs' r r' k k ref e e' h h' hu hu' hn hn').2
  exact honest_same_key hb hb' hu hu' hd

/-- The hypotheses are met by the demo run (whose two fresh signatures use different nonce records). -/
example : PartsAfterGet demo.1 := partsAfterGetB_spec (by decide +kernel)

example : HonestBytes b1 :=
  .inl ⟨[97], vote1, sampleVote_wf, .inr rfl, rfl, by simp [Vote.MistakenForProposal, vote1, sampleVote],
    show IsI64 1600000000000000005 by decide⟩

/-- Whenever a cosigner has made a fresh signature, other bytes that read as the same message up to the time are signed with
the same nonce share. -/
theorem resign_same_nonce (s s' : CState) (bs bs' : Bytes) (r : SignRes) (k : HRST) (hu : unpackHRST bs = .ok k)
    (h : sign C cfg s bs = (.ok r, s')) (hnew : s.lss.hrs ≺ k.hrs) (hne : bs' ≠ bs) (hu' : unpackHRST bs' = .ok k)
    (hd : DifferOnlyByTime k.step bs bs') :
    ∃ r' s'', sign C cfg s' bs' = (.ok r', s'') ∧ bs' ≠ bs ∧ r.nonce ≠ none ∧ r'.nonce = r.nonce ∧
      r'.ephemeralPublic = r.ephemeralPublic := by
  rcases sign_ok_cases h with ⟨k', hc⟩ | ⟨k', ref, m, hf⟩
  · have := hc.unpack; rw [hu] at this; cases this
    rw [hc.hrs] at hnew; exact absurd hnew (HRS.lt_irrefl _)
  have := hf.unpack; rw [hu] at this; cases this
  obtain ⟨g1, g2⟩ := hf.advance hnew
  have hh := hf.hrs
  have hc : s'.lss.checkHRS k = .ok true := by
    unfold SignState.hrs HRST.hrs at hh
    simp only [HRS.mk.injEq] at hh
    unfold SignState.checkHRS
    simp [hh, g1, g2, hf.sig]
  have hst : s'.lss.step = k.step := congrArg HRS.step hh
  have e2 : sign C cfg s' bs' = signFresh C cfg s' bs' k := by
    unfold sign
    rw [hu']; simp only; rw [hc]; simp only
    have : s'.lss.signBytes.bytes = bs := by rw [g1]; rfl
    rw [this, if_neg hne, hst, (onlyDiffer_iff _ _ _).2 hd]
  have hkk : k.less k = false := by
    cases hl : k.less k with
    | false => rfl
    | true => exact absurd ((less_iff _ _).1 hl) (HRS.lt_irrefl _)
  have hent : s'.hrsMeta k = some ref := by rw [hf.pruned, hkk]; exact hf.entry
  have hrec : s'.heap[ref]? = some m := by rw [hf.heap]; exact hf.record
  have h1 : sign C cfg s bs = signFresh C cfg s bs k := by
    obtain ⟨k2, hu2, hh2⟩ := sign_ok C cfg h
    rw [hu] at hu2; cases hu2
    rcases hh2 with ⟨he, _⟩ | ⟨_, hh2⟩ | ⟨he, _⟩
    · rw [he] at hnew; exact absurd hnew (HRS.lt_irrefl _)
    · rw [h, hh2]
    · rw [he] at hnew; exact absurd hnew (HRS.lt_irrefl _)
  rw [h1] at h
  have hok2 : ∃ r2 s2, signFresh C cfg s' bs' k = (.ok r2, s2) := by
    unfold signFresh at h ⊢
    rw [hf.entry] at h; rw [hent]
    simp only at h ⊢
    rw [hf.record] at h; rw [hrec]
    simp only at h ⊢
    split at h
    · simp at h
    next h1 =>
    split at h
    · simp at h
    next h2 =>
    rw [if_neg h1, if_neg h2]
    generalize hEP : C.addElements (m.used.map (·.ephemeralSecretPublicKey)) = EP at *
    have hget : ∀ l : SignState, l.hrs = k.hrs →
        l.getErrorIfLessOrEqual k.height k.round k.step = some (.sameHRS ⟨k.height, k.round, k.step⟩) := by
      intro l hlk
      unfold SignState.hrs HRST.hrs at hlk
      simp only [HRS.mk.injEq] at hlk
      unfold SignState.getErrorIfLessOrEqual
      simp [hlk]
    unfold SignState.save
    simp only
    rw [hget _ (show SignState.hrs { s'.lss with ephemeralPublic := some EP } = k.hrs from hf.hrs)]
    exact ⟨_, _, rfl⟩
  obtain ⟨r2, s2, h2⟩ := hok2
  obtain ⟨ref2, m2, a1, a2, a3, a4, _⟩ := signFresh_ok C cfg (.inl hf.hrs) h2
  rw [hent] at a1; cases a1
  rw [hrec] at a2; cases a2
  exact ⟨r2, s2, e2.trans h2, hne, by rw [hf.nonce]; simp, by rw [a3, hf.nonce], by rw [a4, hf.eph]⟩

/-- C13 (full statement) is false: whenever a cosigner has made a fresh signature, the same sign bytes with any
non-empty trailing bytes are signed with the same nonce share as well. -/
theorem C13_trailing_fails (s s' : CState) (bs t : Bytes) (r : SignRes) (k : HRST) (hu : unpackHRST bs = .ok k)
    (h : sign C cfg s bs = (.ok r, s')) (hnew : s.lss.hrs ≺ k.hrs) (ht : t ≠ []) :
    ∃ r' s'', sign C cfg s' (bs ++ t) = (.ok r', s'') ∧ bs ++ t ≠ bs ∧ r.nonce ≠ none ∧ r'.nonce = r.nonce ∧
      r'.ephemeralPublic = r.ephemeralPublic :=
  resign_same_nonce C cfg s s' bs (bs ++ t) r k hu h hnew (by simpa using ht) (unpackHRST_append hu t) (differ_append hu t)

/-- A run: the vote and the vote with one byte appended are signed with the same nonce share. -/
example : ∃ tr s, Run toy toyCfg toyStart tr s ∧ (relAt tr 1).map (·.1) = some b1 ∧
    (relAt tr 2).map (·.1) = some (b1 ++ [0]) ∧ (relAt tr 1).map (·.2.nonce) = some (some (0, List.replicate 32 1)) ∧
    (relAt tr 2).map (·.2.nonce) = some (some (0, List.replicate 32 1)) :=
  ⟨_, _, exec_run toy toyCfg toyStart [.getPart get1 (toyRnd 1), .sign b1, .sign (b1 ++ [0])] (by decide +kernel),
    by decide +kernel⟩

/-! ### C14 -/

/-- C14, partial: a fresh share signature includes the cosigner's own dealt nonce share (from randomness it drew in
this process), provided it has handed out a part for that block before, and nobody submitted a part in the cosigner's
own name with a valid signature of its own RSA key. Missing: set-parts without a preceding get-parts, where the
claim is false (`C14_set_only_fails`). -/
theorem C14_own_share_partial (l : SignState) (s : CState) (tr tr' : List (CosOp × Out CosResp))
    (bs : Bytes) (r : SignRes) (k : HRST) (ref : Nat) (e : Bytes)
    (hrun : Run C cfg (CState.start l) (tr ++ (CosOp.sign bs, Out.ok (CosResp.signed r)) :: tr') s)
    (hu : unpackHRST bs = .ok k) (hn : r.nonce = some (ref, e))
    (hdeal : ∀ secret rand t n, ∀ x ∈ C.dealShares secret rand t n, x ≠ [])
    (hself : ∀ req rnd, (CosOp.setPart req rnd, Out.ok CosResp.unit) ∈ tr → req.sourceID ≠ cfg.id)
    (hget : ∃ req rnd p, (CosOp.getPart req rnd, Out.ok (CosResp.part p)) ∈ tr ∧ req.key = k) :
    ∃ op out rnd secret own before after,
      (op, out) ∈ tr ∧ ((∃ req, op = .getPart req rnd) ∨ ∃ req, op = .setPart req rnd) ∧
      rnd.secret = some secret ∧
      goIndex (C.dealShares secret rnd.deal cfg.threshold cfg.total) (cfg.id - 1) = some own ∧
      e = C.addScalars (before ++ own :: after) := by
  obtain ⟨s1, hr1, hr2⟩ := hrun.split
  cases hr2 with
  | cons hstep hnp htail =>
    rcases sign_ok_cases (step_sign hstep) with ⟨k', hc⟩ | ⟨k', ref', m, hf⟩
    · rw [hc.res] at hn; cases hn
    have := hf.unpack; rw [hu] at this; cases this
    rw [hf.nonce] at hn
    simp only [Option.some.injEq, Prod.mk.injEq] at hn
    obtain ⟨rfl, rfl⟩ := hn
    obtain ⟨req, rnd0, p, hg, rfl⟩ := hget
    rcases own_inv hr1 hself req rnd0 p hg with ⟨ref2, m2, g1, g2, own, g3, g4⟩ | hlt
    · rw [hf.entry] at g1; cases g1
      rw [hf.record] at g2; cases g2
      obtain ⟨op, out, rnd, d1, d2, d3, d4⟩ := drawn_inv hr1 m (List.mem_of_getElem? hf.record)
      have hmem : own ∈ m.dealtShares := by
        unfold goIndex at g3
        split at g3
        · cases g3
        · exact List.mem_of_getElem? g3
      have hne : own ≠ [] := by rw [d4] at hmem; exact hdeal _ _ _ _ _ hmem
      have hused : (⟨own, C.scalarMultiplyBase m.secret⟩ : PeerMeta) ∈ m.used := by
        unfold Meta.used
        rw [List.mem_filter]
        refine ⟨?_, by simpa using hne⟩
        unfold goIndex at g4
        split at g4
        · cases g4
        · exact List.mem_of_getElem? g4
      have : own ∈ m.used.map (·.share) := List.mem_map.2 ⟨_, hused, rfl⟩
      obtain ⟨a, b, hab⟩ := List.mem_iff_append.1 this
      exact ⟨op, out, rnd, m.secret, own, a, b, d1, d2, d3, by rw [← d4]; exact g3, by rw [hab]⟩
    · exact absurd (HRS.lt_of_lt_of_le hlt hf.le) (HRS.lt_irrefl _)

/-- In the demo run the first signature's nonce share is the sum of the own share (32 times 1) and the received one
(32 times 5). -/
example : (relAt demo.1 3).map (·.2.nonce) = some (some (0, List.replicate 32 6)) := by decide +kernel

/-- C14 (full statement) is false: given only another cosigner's part, without having handed out its own, a cosigner
signs with a nonce share that consists of the received share alone. -/
theorem C14_set_only_fails : ∃ tr s r, Run toy toyCfg (CState.start .empty) tr s ∧
    (∀ req rnd o, (CosOp.getPart req rnd, o) ∉ tr) ∧
    (CosOp.sign b1, Out.ok (CosResp.signed r)) ∈ tr ∧
    r.nonce = some (0, toy.addScalars [List.replicate 32 5]) ∧
    r.ephemeralPublic = some (toy.addElements [List.replicate 32 5]) := by
  have hrun := exec_run toy toyCfg (CState.start .empty) [.setPart (part2 5) (toyRnd 7), .sign b1] (by decide +kernel)
  obtain ⟨r, h1, h2⟩ := relCheck_spec
    (tr := (exec toy toyCfg (CState.start .empty) [.setPart (part2 5) (toyRnd 7), .sign b1]).1) (i := 1) (bs := b1)
    (q := fun r => decide (r.nonce = some (0, toy.addScalars [List.replicate 32 5]) ∧
      r.ephemeralPublic = some (toy.addElements [List.replicate 32 5]))) (by decide +kernel)
  simp only [decide_eq_true_eq] at h2
  exact ⟨_, _, r, hrun, by intro req rnd o hm; simp [exec] at hm, h1, h2.1, h2.2⟩

/-! ### C15 -/

/-- C15: parts without a source signature, from an unknown source, or with a signature that does not verify are
refused, and nothing changes. -/
theorem C15_refused (s : CState) (req : SetPartReq) (rnd : Rand)
    (h : req.sourceSig = none ∨ cfg.peers req.sourceID = none ∨
      ∃ sig pub, req.sourceSig = some sig ∧ cfg.peers req.sourceID = some pub ∧
        C.rsaVerify pub ⟨req.sourceID, req.ephemeralPublic, req.encrypted⟩ sig = false) :
    ∃ e, setPart C cfg s req rnd = (.err e, s) := by
  unfold setPart
  rcases h with h | h | ⟨sig, pub, h1, h2, h3⟩
  · rw [h]; exact ⟨_, rfl⟩
  · cases hs : req.sourceSig with
    | none => exact ⟨_, rfl⟩
    | some sig => simp only; rw [h]; exact ⟨_, rfl⟩
  · rw [h1]; simp only; rw [h2]; simp only; rw [if_pos h3]; exact ⟨_, rfl⟩

/-- C15: an accepted part comes from a configured peer, carries a signature that verifies under that peer's RSA key
over source ID, ephemeral public key and ciphertext, decrypts under the own key, and is stored in exactly that
source's slot of the block's record; all other slots of all records that existed before are unchanged. -/
theorem C15_stored (s s' : CState) (req : SetPartReq) (rnd : Rand)
    (h : setPart C cfg s req rnd = (.ok (), s')) :
    ∃ sig pub share ref m, req.sourceSig = some sig ∧ cfg.peers req.sourceID = some pub ∧
      C.rsaVerify pub ⟨req.sourceID, req.ephemeralPublic, req.encrypted⟩ sig = true ∧
      C.rsaDecrypt cfg.rsaKey req.encrypted.bytes = some share ∧
      s'.hrsMeta req.key = some ref ∧ s'.heap[ref]? = some m ∧
      goIndex m.peers (req.sourceID - 1) = some ⟨share, req.ephemeralPublic.bytes⟩ ∧
      (∀ m0, s.heap[ref]? = some m0 → ∀ j, j ≠ req.sourceID - 1 → goIndex m.peers j = goIndex m0.peers j) ∧
      (∀ (ref' : Nat) m0, ref' ≠ ref → s.heap[ref']? = some m0 → s'.heap[ref']? = some m0) := by
  unfold setPart at h
  simp only at h
  split at h
  · simp at h
  next sig hsig =>
  split at h
  · simp at h
  next pub hpub =>
  split at h
  · simp at h
  next hver =>
  split at h
  · simp at h
  next ref s1 heq =>
  split at h
  · simp at h
  next share hsh =>
  split at h
  · simp at h
  next s2 hs2 =>
  simp only [Prod.mk.injEq, true_and] at h
  subst h
  obtain ⟨e1, _, _, hoth, m, hm, hi, hl, hnew⟩ := setSlot_maps hs2
  obtain ⟨f1, _, _, f4⟩ := metaFor_maps heq
  have hold : ∀ (r : Nat) (m0 : Meta), s.heap[r]? = some m0 → s1.heap[r]? = some m0 := by
    intro r m0 h0
    rcases f4 with f4 | ⟨_, _, _, f4⟩
    · rw [f4]; exact h0
    · rw [f4, List.getElem?_append_left (List.getElem?_eq_some_iff.1 h0).1]; exact h0
  refine ⟨sig, pub, share, ref, _, hsig, hpub, by simpa using hver, hsh, by rw [e1]; exact f1, hnew, ?_, ?_, ?_⟩
  · exact goIndex_set_eq hi hl
  · intro m0 h0 j hj
    have := hold ref m0 h0
    rw [hm] at this; cases this
    exact goIndex_set_ne hi (Ne.symm hj)
  · intro r m0 hr h0
    rw [hoth r hr]; exact hold r m0 h0

/-- C15: a part that is not accepted changes no slot of any record. -/
theorem C15_not_stored (s s' : CState) (req : SetPartReq) (rnd : Rand) (o : Out Unit)
    (h : setPart C cfg s req rnd = (o, s')) (ho : o ≠ .ok ()) :
    ∀ (ref : Nat) (m : Meta), s.heap[ref]? = some m → s'.heap[ref]? = some m := by
  intro r m hm
  obtain ⟨_, h2⟩ := setPart_step h
  rcases h2 with rfl | ⟨ref, s1, hmf, h3⟩
  · exact hm
  · have h1 : s1.heap[r]? = some m := by
      obtain ⟨_, _, _, f4⟩ := metaFor_maps hmf
      rcases f4 with f4 | ⟨_, _, _, f4⟩
      · rw [f4]; exact hm
      · rw [f4, List.getElem?_append_left (List.getElem?_eq_some_iff.1 hm).1]; exact hm
    rcases h3 with rfl | ⟨_, _, _, _, hw, _⟩
    · exact h1
    · exact absurd hw.2.2.2 ho

/-- A part is accepted, and refused with a wrong signature, or when encrypted to somebody else. -/
example : (setPart toy toyCfg toyStart (part2 5) (toyRnd 7)).1 = .ok () ∧
    (setPart toy toyCfg toyStart { part2 5 with sourceID := 1 } (toyRnd 7)).1 = .err .badSourceSig ∧
    (setPart toy toyCfg toyStart { part2 5 with sourceID := 3 } (toyRnd 7)).1 = .err .unknownCosigner := by
  decide +kernel

/-! ### C16 -/

/-- C16 (full statement) is false: the block a part was made for is not authenticated. In every state reached by a
run, if a part is accepted for one block then the same part is accepted for every other block (given randomness). -/
theorem C16_replay_fails (l : SignState) (s s' : CState) (tr : List (CosOp × Out CosResp))
    (hrun : Run C cfg (CState.start l) tr s) (req : SetPartReq) (rnd : Rand)
    (h : setPart C cfg s req rnd = (.ok (), s')) (height round step : Int) (time : GoTime) (secret : Bytes)
    (rnd' : Rand) (hr : rnd'.secret = some secret) :
    ∃ s'', setPart C cfg s { req with height := height, round := round, step := step, timestamp := time } rnd'
      = (.ok (), s'') := by
  have hok := run_ok hrun (start_ok l)
  have hslots := run_slots hrun (start_slots l cfg.total)
  obtain ⟨hi, hl⟩ : 0 ≤ req.sourceID - 1 ∧ (req.sourceID - 1).toNat < cfg.total := by
    obtain ⟨sig, pub, share, ref, m, _, _, _, _, h5, h6, h7, _⟩ := C15_stored C cfg s s' req rnd h
    have hs' : s'.Slots cfg.total := (setPart_step h).2.slots hslots
    have hm := hs' m (List.mem_of_getElem? h6)
    unfold goIndex at h7
    split at h7
    · cases h7
    · have := (List.getElem?_eq_some_iff.1 h7).1
      exact ⟨by omega, by omega⟩
  obtain ⟨sig, pub, share, _, _, h1, h2, h3, h4, _⟩ := C15_stored C cfg s s' req rnd h
  unfold setPart
  simp only [h1, h2, h3]
  have hmf : ∃ ref s1, metaFor C cfg s
      ⟨height, round, step, time.unixNano⟩
      ⟨height, round, step, GoTime.zero.unixNano⟩ rnd' = some (ref, s1) := by
    unfold metaFor dealSharesFor
    rw [hr]
    cases s.hrsMeta _ with
    | some ref => exact ⟨_, _, rfl⟩
    | none =>
      simp only
      cases s.hrsMeta _ with
      | some ref => exact ⟨_, _, rfl⟩
      | none => exact ⟨_, _, rfl⟩
  obtain ⟨ref, s1, hmf⟩ := hmf
  simp only [SetPartReq.key]
  rw [hmf]
  simp only [h4, Bool.true_eq_false, if_false]
  have hps : PartStep C cfg s ⟨height, round, step, time.unixNano⟩
      ⟨height, round, step, GoTime.zero.unixNano⟩ rnd' (fun _ _ _ => True) s1 := .inr ⟨ref, s1, hmf, .inl rfl⟩
  have hslots1 := hps.slots hslots
  have href : ref < s1.heap.length := by
    rcases metaFor_spec hmf with ⟨a, rfl⟩ | ⟨_, a, rfl⟩ | ⟨_, _, rfl, _, _, rfl⟩
    · exact hok _ _ a
    · exact hok _ _ a
    · simp [CState.setMeta]
  have hset : ∃ s2, s1.setSlot ref (req.sourceID - 1) ⟨share, req.ephemeralPublic.bytes⟩ = some s2 := by
    unfold CState.setSlot
    rw [List.getElem?_eq_getElem href]
    simp only
    have hlen := hslots1 _ (List.getElem_mem href)
    unfold goIndex
    rw [if_neg (by omega), List.getElem?_eq_getElem (by omega)]
    exact ⟨_, rfl⟩
  obtain ⟨s2, hset⟩ := hset
  rw [hset]
  exact ⟨s2, rfl⟩

/-- C16, partial: a part whose ciphertext does not decrypt under this cosigner's key (as one made for another
destination) is refused, and no slot changes. Missing: the binding to the block, which is false. -/
theorem C16_destination_partial (s s' : CState) (req : SetPartReq) (rnd : Rand) (o : Out Unit)
    (hd : C.rsaDecrypt cfg.rsaKey req.encrypted.bytes = none) (h : setPart C cfg s req rnd = (o, s')) :
    (∃ e, o = .err e) ∧ ∀ (ref : Nat) (m : Meta), s.heap[ref]? = some m → s'.heap[ref]? = some m := by
  have ho : ∃ e, o = .err e := by
    unfold setPart at h
    simp only at h
    rw [hd] at h
    (repeat' split at h) <;> simp only [Prod.mk.injEq] at h <;> first
      | exact ⟨_, h.1.symm⟩
      | simp_all
  obtain ⟨e, rfl⟩ := ho
  exact ⟨⟨e, rfl⟩, C15_not_stored C cfg s s' req rnd _ h (by simp)⟩

example : (setPart toy toyCfg toyStart { part2 5 with height := 99 } (toyRnd 7)).1 = .ok () := by decide +kernel

/-! ### C17 -/

/-- C17: a successful get-parts call (without other calls in between) returns exactly one part per configured peer
other than the cosigner itself, in iteration order, each addressed to that peer, encrypted to its key, signed with
the own key, all with the same ephemeral public key and the shares of one deal, which stays on record. If there was a
record for the block already, it is that one. The watermark is untouched. -/
theorem C17_parts (s s' : CState) (k : HRST) (hk : IsI64 k.timestamp) (order : List Int) (rnd : Nat → Rand)
    (parts : List SecretPart) (h : getParts C cfg k order rnd s = (.ok parts, s')) :
    parts.map (·.destinationID) = order.filter (fun i => i ≠ cfg.id) ∧ s'.lss = s.lss ∧
    (parts = [] ∨ ∃ secret dealt, RecordAt s' k secret dealt ∧ (∀ p ∈ parts, PartOf C cfg secret dealt p) ∧
      ∀ secret0 dealt0, RecordAt s k secret0 dealt0 → secret0 = secret ∧ dealt0 = dealt) := by
  unfold getParts at h
  split at h
  · simp at h
  · obtain ⟨h1, h2, h3⟩ := getPartsLoop_ok hk h (.inl rfl)
    refine ⟨by simpa using h2, h1, ?_⟩
    rcases h3 with ⟨h3, _⟩ | h3
    · exact .inl h3
    · exact .inr h3

example : ∃ p s', getParts toy toyCfg ⟨7, 1, 3, 1600000000000000005⟩ [1, 2] (fun _ => toyRnd 1) toyStart
    = (.ok [p], s') ∧ p.destinationID = 2 := ⟨⟨_, _, _, _, _⟩, _, rfl, rfl⟩

/-! ### C18 -/

/-- C18: after a fresh share signature there is no nonce material for any strictly lower height/round/step; for all
others the entry and the record are what they were. -/
theorem C18_prune (s s' : CState) (bs : Bytes) (r : SignRes) (k : HRST)
    (h : sign C cfg s bs = (.ok r, s')) (hu : unpackHRST bs = .ok k) (hfresh : r.nonce ≠ none) (k' : HRST) :
    (k'.hrs ≺ k.hrs → s'.hrsMeta k' = none) ∧
    (¬ k'.hrs ≺ k.hrs → s'.hrsMeta k' = s.hrsMeta k') ∧
    (∀ ref : Nat, s'.heap[ref]? = s.heap[ref]?) := by
  rcases sign_ok_cases h with ⟨k2, hc⟩ | ⟨k2, ref, m, hf⟩
  · rw [hc.res] at hfresh; exact absurd rfl hfresh
  · have := hf.unpack; rw [hu] at this; cases this
    refine ⟨?_, ?_, fun r => by rw [hf.heap]⟩
    · intro hlt; rw [hf.pruned, if_pos ((less_iff _ _).2 hlt)]
    · intro hlt
      rw [hf.pruned, if_neg (fun h => hlt ((less_iff _ _).1 h))]

/-- C18: an answer from the record, and a refusal, forget nothing. -/
theorem C18_otherwise (s s' : CState) (bs : Bytes) (o : Out SignRes)
    (h : sign C cfg s bs = (o, s')) (hno : ∀ r, o = .ok r → r.nonce = none) : s' = s := by
  cases o with
  | ok r =>
    rcases sign_ok_cases h with ⟨k2, hc⟩ | ⟨k2, ref, m, hf⟩
    · exact hc.state
    · have := hno r rfl; rw [hf.nonce] at this; cases this
  | err e => exact sign_not_ok C cfg h (by simp)
  | panic => exact sign_not_ok C cfg h (by simp)

/-- Signing one height up forgets the lower block but keeps the signed one. -/
example : ∃ s, s = (exec toy toyCfg toyStart [.getPart get1 (toyRnd 1), .getPart get3 (toyRnd 9)]).2 ∧
    s.hrsMeta get1.key = some 0 ∧ (sign toy toyCfg s b3).2.hrsMeta get1.key = none ∧
    (sign toy toyCfg s b3).2.hrsMeta get3.key = some 1 := ⟨_, rfl, by decide +kernel, by decide +kernel, by decide +kernel⟩

/-! ### C58 -/

/-- C58, partial: under the protocol's schedule, fresh signatures for two requests with the same height, round and
step whose (representable) timestamps differ use different nonce records. Missing: other schedules and times outside
1678–2261, for which it is false (`C58_alias_fails`, `C58_wrap_fails`). -/
theorem C58_distinct_partial (l : SignState) (s : CState) (tr : List (CosOp × Out CosResp))
    (hrun : Run C cfg (CState.start l) tr s) (hsched : PartsAfterGet tr)
    (bs bs' : Bytes) (r r' : SignRes) (k k' : HRST) (ref ref' : Nat) (e e' : Bytes)
    (h : (CosOp.sign bs, Out.ok (CosResp.signed r)) ∈ tr)
    (h' : (CosOp.sign bs', Out.ok (CosResp.signed r')) ∈ tr)
    (hu : unpackHRST bs = .ok k) (hu' : unpackHRST bs' = .ok k')
    (hn : r.nonce = some (ref, e)) (hn' : r'.nonce = some (ref', e'))
    (t t' : GoTime) (ht : t.valid = true) (ht' : t'.valid = true) (hr : t.InRange) (hr' : t'.InRange)
    (hkt : k.timestamp = t.unixNano) (hkt' : k'.timestamp = t'.unixNano) (hne : t ≠ t') :
    ref ≠ ref' := by
  rintro rfl
  obtain ⟨f, _, _, hf⟩ := nonce_key_inv hrun hsched
  have hk : k = k' := by rw [← (hf bs r k ref e h hu hn).2, ← (hf bs' r' k' ref e' h' hu' hn').2]
  rw [hk, hkt'] at hkt
  exact hne (unixNano_inj ht ht' hr hr' hkt.symm)

/-- In the demo run the two times use records 0 and 1. -/
example : (relAt demo.1 3).map (·.2.nonce) = some (some (0, List.replicate 32 6)) ∧
    (relAt demo.1 4).map (·.2.nonce) = some (some (1, List.replicate 32 3)) := by decide +kernel

/-- C58 (full statement) is false: with set-parts before get-parts, two timestamps share one nonce record (it is dealt
under the zero time), so both votes are signed with the same nonce. -/
theorem C58_alias_fails : ∃ tr s r r', Run toy toyCfg (CState.start .empty) tr s ∧
    (CosOp.sign b1, Out.ok (CosResp.signed r)) ∈ tr ∧ (CosOp.sign b2, Out.ok (CosResp.signed r')) ∈ tr ∧
    b1 ≠ b2 ∧ r.nonce ≠ none ∧ r.nonce = r'.nonce := by
  have hrun := exec_run toy toyCfg (CState.start .empty)
      [.setPart (part2 5) (toyRnd 7), .setPart { part2 5 with timestamp := ⟨1600000001, 0⟩ } (toyRnd 7),
       .sign b1, .sign b2] (by decide +kernel)
  generalize hx : exec toy toyCfg (CState.start .empty)
      [.setPart (part2 5) (toyRnd 7), .setPart { part2 5 with timestamp := ⟨1600000001, 0⟩ } (toyRnd 7),
       .sign b1, .sign b2] = x at hrun
  obtain ⟨r, h1, h2⟩ := relCheck_spec (tr := x.1) (i := 2) (bs := b1)
    (q := fun r => decide (r.nonce = some (0, List.replicate 32 5))) (by rw [← hx]; decide +kernel)
  obtain ⟨r', h1', h2'⟩ := relCheck_spec (tr := x.1) (i := 3) (bs := b2)
    (q := fun r => decide (r.nonce = some (0, List.replicate 32 5))) (by rw [← hx]; decide +kernel)
  simp only [decide_eq_true_eq] at h2 h2'
  exact ⟨_, _, r, r', hrun, h1, h1', by decide +kernel, by rw [h2]; simp, by rw [h2, h2']⟩

/-- The precommit of the examples 584 years later. -/
def vote1l : Vote := { vote1 with timestamp := ⟨20046744073, 709551621⟩ }

def b1l : Bytes := bytesOf (voteSignBytes [97] vote1l)

/-- C58 (full statement) is false: the times of two valid votes that are 2^64 nanoseconds apart have the same nanosecond
count in an `int64`, and the nonce record is kept under this count. So also after get-parts both votes are signed with one
nonce. -/
theorem C58_wrap_fails : ∃ tr s r r', Run toy toyCfg (CState.start .empty) tr s ∧
    (CosOp.sign b1, Out.ok (CosResp.signed r)) ∈ tr ∧ (CosOp.sign b1l, Out.ok (CosResp.signed r')) ∈ tr ∧
    vote1.timestamp.valid = true ∧ vote1l.timestamp.valid = true ∧ b1 ≠ b1l ∧ r.nonce ≠ none ∧ r.nonce = r'.nonce := by
  have hrun := exec_run toy toyCfg (CState.start .empty)
      [.getPart get1 (toyRnd 1), .setPart (part2 5) (toyRnd 7), .sign b1, .sign b1l] (by decide +kernel)
  generalize hx : exec toy toyCfg (CState.start .empty)
      [.getPart get1 (toyRnd 1), .setPart (part2 5) (toyRnd 7), .sign b1, .sign b1l] = x at hrun
  obtain ⟨r, h1, h2⟩ := relCheck_spec (tr := x.1) (i := 2) (bs := b1)
    (q := fun r => decide (r.nonce = some (0, List.replicate 32 6))) (by rw [← hx]; decide +kernel)
  obtain ⟨r', h1', h2'⟩ := relCheck_spec (tr := x.1) (i := 3) (bs := b1l)
    (q := fun r => decide (r.nonce = some (0, List.replicate 32 6))) (by rw [← hx]; decide +kernel)
  simp only [decide_eq_true_eq] at h2 h2'
  exact ⟨_, _, r, r', hrun, h1, h1', by decide, by decide, by decide +kernel, by rw [h2]; simp, by rw [h2, h2']⟩

end Horcrux
