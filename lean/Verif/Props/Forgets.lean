import Verif.Lemmas.Retry
import Verif.Props.Crash
import Verif.Props.Retry
/-
Property C36: what every restart leads to whose state file is behind what was signed.
-/
namespace Horcrux
open Spec

/-- No two share signatures for one height, round and step were released over sign bytes that differ in more than the time. -/
def Spec.NoConflicts (tr : List (DEv × Option (Out CosResp))) : Prop :=
  ∀ bs bs' r r' k k', (DEv.op (.sign bs), some (Out.ok (CosResp.signed r))) ∈ tr →
    (DEv.op (.sign bs'), some (Out.ok (CosResp.signed r'))) ∈ tr → unpackHRST bs = .ok k → unpackHRST bs' = .ok k' →
    k.hrs = k'.hrs → DifferOnlyByTime k.step bs bs'

theorem covered_none {C : Crypto} {cfg : CosignerCfg} {s0 : DState} {tr : List (DEv × Option (Out CosResp))}
    (h : ∀ x ∈ tr, x.1 ≠ .restart) : CrashesCovered C cfg s0 tr := by
  intro tr1 a tr2 s1 heq
  exact absurd rfl (h (.restart, a) (by rw [heq]; simp))

section
variable {C : Crypto} {F G : Type} [Field F] [AddCommGroup G] [Module F G] {L : Lawful C F G}
  {pair : Bytes → Bytes → Prop} {n t : Nat} {cfg : Nat → CosignerCfg} {x : F} {kc : List F} {rsaPub : Nat → Bytes}

/-- A cosigner that has just started, asked for a part for another cosigner and then for a signature. -/
theorem boot_signs (hS : Setup C L pair n t cfg x kc rsaPub) {p q : Nat} (hp1 : 1 ≤ p) (hp2 : p ≤ n) (hq1 : 1 ≤ q)
    (hq2 : q ≤ n) (hpq : q ≠ p) {f : PFile} {k : HRST} {bs sec : Bytes} {rnd : Rand} (hk : IsI64 k.timestamp)
    (hu : unpackHRST bs = .ok k) (hf : f.hrs ≺ k.hrs) (hsec : rnd.secret = some sec) (hlen : sec.length = 32) :
    ∃ part s1 r s2,
      (CState.start f.load).step C (cfg p)
        (.getPart ⟨q, k.height, k.round, k.step, GoTime.ofUnixNano k.timestamp⟩ rnd) = (.ok (.part part), s1) ∧
      s1.step C (cfg p) (.sign bs) = (.ok (.signed r), s2) ∧ s2.lss.hrs = k.hrs ∧ s2.lss.signBytes = some bs := by
  obtain ⟨sc, rr, parts, s1, _, _, g1, g2, _, g4⟩ := getPartsLoop_fresh hS hp1 hp2 hk [q] (fun _ => rnd)
    (CState.start f.load) (by simpa using ⟨hq1, hq2⟩) ⟨q, by simp, hpq⟩ rfl (fun _ => ⟨sec, hsec, hlen⟩)
  have hid : ¬ ((q : Int) = (cfg p).id) := by
    rw [hS.id p hp1 hp2]
    omega
  simp only [List.map_cons, List.map_nil, getPartsLoop, if_neg hid] at g1
  have hg : ∃ part, getPart C (cfg p) (CState.start f.load)
      ⟨q, k.height, k.round, k.step, GoTime.ofUnixNano k.timestamp⟩ rnd = (.ok part, s1) := by
    revert g1
    generalize getPart C (cfg p) (CState.start f.load) _ rnd = y
    obtain ⟨o, s'⟩ := y
    cases o with
    | ok part =>
      intro g1
      simp only [Prod.mk.injEq] at g1
      exact ⟨part, by rw [g1.2]⟩
    | err e => intro g1; simp at g1
    | panic => intro g1; simp at g1
  obtain ⟨part, hg⟩ := hg
  have g4' : Rec s1 k (fullRecord L n t p (fun _ => sc) (fun _ => rr) [p]) := g4
  obtain ⟨res, s2, b1, b2, _⟩ := sign_fresh hS hp1 hp2 hu (s := s1) (by rw [g2]; exact hf) g4'
  exact ⟨part, s1, res, s2, by simp only [CState.step, hg, Out.map], by simp only [CState.step, b1, Out.map], b2.hrs,
    b2.signBytes⟩

/-- C36 (full statement) is false of every cosigner: after signing a block above its file it is killed before the write, and
signs any other sign bytes for the same height, round and step, at any time. -/
theorem C36_every_fails (hS : Setup C L pair n t cfg x kc rsaPub) (p q : Nat) (hp1 : 1 ≤ p) (hp2 : p ≤ n) (hq1 : 1 ≤ q)
    (hq2 : q ≤ n) (hpq : q ≠ p) (f : PFile) (k k' : HRST) (bs bs' sec : Bytes) (rnd : Rand)
    (hu : unpackHRST bs = .ok k) (hu' : unpackHRST bs' = .ok k') (hsame : k'.hrs = k.hrs)
    (hf : f.hrs ≺ k.hrs) (hsec : rnd.secret = some sec) (hlen : sec.length = 32) :
    ∃ tr s r r', DRun C (cfg p) anything (DState.boot f) tr s ∧
      (DEv.op (.sign bs), some (Out.ok (CosResp.signed r))) ∈ tr ∧
      (DEv.op (.sign bs'), some (Out.ok (CosResp.signed r'))) ∈ tr := by
  obtain ⟨part, s1, r, s2, h1, h2, _⟩ := boot_signs hS hp1 hp2 hq1 hq2 hpq (unpack_time_i64 hu) hu hf hsec hlen
  have r1 := (DRun.nil (C := C) (cfg := cfg p) (ok := anything) (s0 := DState.boot f)).snoc
    (.op (.getPart ⟨q, k.height, k.round, k.step, GoTime.ofUnixNano k.timestamp⟩ rnd)) trivial
  have r2 := r1.snoc (.op (.sign bs)) trivial
  have hfile : (((DState.boot f).step C (cfg p)
      (.op (.getPart ⟨q, k.height, k.round, k.step, GoTime.ofUnixNano k.timestamp⟩ rnd))).2.step C (cfg p)
      (.op (.sign bs))).2.file = f := by
    simp only [DState.step, DState.boot, Bool.true_eq_false, if_false, h1, h2]
  simp only [HRST.hrs, HRS.mk.injEq] at hsame
  obtain ⟨part', r', tr', s', _, h3, h4, h5, _⟩ := C36_needed L pair n t cfg x kc rsaPub hS p ⟨hp1, hp2⟩ f _ _ r2 bs r k
    (by simp only [DState.step, DState.boot, Bool.true_eq_false, if_false, h1, h2, List.mem_append, List.mem_cons, true_or,
      or_true]) hu (by rw [hfile]; exact hf) bs' k' hu' ⟨hsame.1.symm, hsame.2.1.symm, hsame.2.2.symm⟩ rnd sec hsec hlen
  exact ⟨tr', s', r, r', h3, h4, h5⟩

/-- C36, exactly: let no restart so far have found a file behind. Then killing the process now leads to no conflicting
signatures, whatever is asked of it afterwards, exactly if the file has come up to every block of which a share signature
was released. (For each such block there must be something else to sign.) -/
theorem C36_exact (hS : Setup C L pair n t cfg x kc rsaPub) (p : Nat) (hp1 : 1 ≤ p) (hp2 : p ≤ n) (f : PFile)
    (s : DState) (tr : List (DEv × Option (Out CosResp))) (hrun : DRun C (cfg p) anything (DState.boot f) tr s)
    (hc : CrashesCovered C (cfg p) (DState.boot f) tr)
    (hother : ∀ bs r k, (DEv.op (.sign bs), some (Out.ok (CosResp.signed r))) ∈ tr → unpackHRST bs = .ok k →
      ∃ bs' k', unpackHRST bs' = .ok k' ∧ k'.hrs = k.hrs ∧ ¬ DifferOnlyByTime k.step bs bs') :
    (∀ tr' s', DRun C (cfg p) anything (DState.boot f) (tr ++ (.restart, none) :: tr') s' → (∀ x ∈ tr', x.1 ≠ .restart) →
      NoConflicts (tr ++ (.restart, none) :: tr')) ↔
    ∀ bs r k, (DEv.op (.sign bs), some (Out.ok (CosResp.signed r))) ∈ tr → unpackHRST bs = .ok k → k.hrs ≼ s.file.hrs := by
  constructor
  · intro h bs r k hm hu
    by_contra hle
    have hf : s.file.hrs ≺ k.hrs := by_contra fun h => hle (HRS.not_lt.1 h)
    obtain ⟨bs', k', hu', hk', hd⟩ := hother bs r k hm hu
    have hk'' := hk'
    simp only [HRST.hrs, HRS.mk.injEq] at hk''
    obtain ⟨part, r', tr', s', e, h3, h4, h5, _⟩ := C36_needed L pair n t cfg x kc rsaPub hS p ⟨hp1, hp2⟩ f s tr hrun bs r k
      hm hu hf bs' k' hu' ⟨hk''.1.symm, hk''.2.1.symm, hk''.2.2.symm⟩ ⟨some (List.replicate 32 0), [], [], []⟩
      (List.replicate 32 0) rfl (by simp)
    subst e
    exact hd (h _ s' h3 (by simp) bs bs' r r' k k' h4 h5 hu hu' hk'.symm)
  · intro h tr' s' hrun' hno
    suffices hcov : CrashesCovered C (cfg p) (DState.boot f) (tr ++ (.restart, none) :: tr') by
      intro bs bs' r r' k k' h1 h2 hu hu' hk
      simp only [HRST.hrs, HRS.mk.injEq] at hk
      exact C36_covered_partial C (cfg p) f s' _ hrun' hcov bs bs' r r' k k' h1 h2 hu hu' hk
    intro tr1 a tr2 s1 heq hr1 bs r k hm hu
    rcases List.append_eq_append_iff.1 heq with ⟨l, h1, h2⟩ | ⟨l, h1, h2⟩
    · cases l with
      | nil =>
        rw [List.append_nil] at h1
        subst h1
        rw [drun_det hr1 hrun]
        exact HRS.not_lt.2 (h bs r k hm hu)
      | cons y l =>
        simp only [List.cons_append, List.cons.injEq] at h2
        exact absurd rfl (hno (.restart, a) (by rw [h2.2]; simp))
    · cases l with
      | nil =>
        rw [List.append_nil] at h1
        subst h1
        rw [drun_det hr1 hrun]
        exact HRS.not_lt.2 (h bs r k hm hu)
      | cons y l =>
        simp only [List.cons_append, List.cons.injEq] at h2
        exact hc tr1 a l s1 (by rw [h1, h2.1]) hr1 bs r k hm hu

end

/-- The third cosigner of a real cluster signs two different precommits at height 7, round 1. -/
example : (∃ tr s r r', DRun ftoy (fcfg 3) anything (DState.boot emptyFile) tr s ∧ DReleased tr b1 r ∧ DReleased tr b1x r') ∧
    ¬ DifferOnlyByTime 3 b1 b1x := by
  refine ⟨C36_every_fails fsetup 3 1 (by omega) (by omega) (by omega) (by omega) (by omega) emptyFile _ _ b1 b1x
    (List.replicate 32 5) ⟨some (List.replicate 32 5), [], [], []⟩ unpack_b1 unpack_b1x rfl ?_ rfl (by simp), fun h => ?_⟩
  · decide
  · have hn : onlyDifferByTimestamp 3 b1 b1x ≠ none := by decide +kernel
    exact hn ((onlyDiffer_iff 3 b1 b1x).2 h)

/-- The conditions of `C36_exact`, with a file that is behind: the third cosigner has signed, and has written nothing. -/
example : ∃ tr s, DRun ftoy (fcfg 3) anything (DState.boot emptyFile) tr s ∧ CrashesCovered ftoy (fcfg 3) (DState.boot emptyFile) tr ∧
    (∀ bs r k, DReleased tr bs r → unpackHRST bs = .ok k →
      ∃ bs' k', unpackHRST bs' = .ok k' ∧ k'.hrs = k.hrs ∧ ¬ DifferOnlyByTime k.step bs bs') ∧
    ∃ bs r k, DReleased tr bs r ∧ unpackHRST bs = .ok k ∧ ¬ k.hrs ≼ s.file.hrs := by
  obtain ⟨part, s1, r, s2, h1, h2, _⟩ := boot_signs fsetup (p := 3) (q := 1) (by omega) (by omega) (by omega) (by omega)
    (by omega) (f := emptyFile) (bs := b1) (sec := List.replicate 32 5) (rnd := ⟨some (List.replicate 32 5), [], [], []⟩)
    (by decide) unpack_b1 (by decide) rfl (by simp)
  generalize hreq : (GetPartReq.mk _ _ _ _ _) = req at h1
  have r1 := (DRun.nil (C := ftoy) (cfg := fcfg 3) (ok := anything) (s0 := DState.boot emptyFile)).snoc
    (.op (.getPart req ⟨some (List.replicate 32 5), [], [], []⟩)) trivial
  have r2 := r1.snoc (.op (.sign b1)) trivial
  simp only [DState.step, DState.boot, Bool.true_eq_false, if_false, h1, h2, List.nil_append, List.cons_append] at r2
  refine ⟨_, _, r2, covered_none (by simp), fun bs r k hm hu => ?_, b1, r, _, by simp [DReleased], unpack_b1, by
    simp only [emptyFile, PFile.hrs, HRST.hrs]; decide⟩
  have hb : bs = b1 := by
    simp only [DReleased, List.mem_cons, Prod.mk.injEq, DEv.op.injEq, reduceCtorEq, CosOp.sign.injEq, List.not_mem_nil,
      or_false, false_and, false_or] at hm
    exact hm.1
  subst hb
  rw [unpack_b1] at hu
  simp only [Out.ok.injEq] at hu
  subst hu
  refine ⟨b1x, _, unpack_b1x, rfl, fun h => ?_⟩
  have hn : onlyDifferByTimestamp 3 b1 b1x ≠ none := by decide +kernel
  exact hn ((onlyDiffer_iff 3 b1 b1x).2 h)

end Horcrux
