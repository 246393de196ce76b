import Verif.Props.Deals
import Verif.Props.SignState
/-
Property C12 for requests that were themselves re-signed with another time.
-/
namespace Horcrux
open Spec

variable {C : Crypto} {cfg : CosignerCfg}

/-- The height, round and step that a call for or with a secret part is about. -/
def CosOp.about : CosOp → Option HRS
  | .getPart req _ => some req.key.hrs
  | .setPart req _ => some req.key.hrs
  | _ => none

theorem PartStep.elsewhere {s s' : CState} {k kd : HRST} {rnd : Rand} {W : Meta → Int → PeerMeta → Prop}
    (h : PartStep C cfg s k kd rnd W s') (hkd : kd.hrs = k.hrs) {f : Nat → HRS}
    (hf : ∀ k ref, s.hrsMeta k = some ref → f ref = k.hrs) {ref : Nat} {m : Meta} (hm : s.heap[ref]? = some m)
    (hne : f ref ≠ k.hrs) : s'.heap[ref]? = some m := by
  have hr : ref < s.heap.length := (List.getElem?_eq_some_iff.1 hm).1
  rcases h with rfl | ⟨ref', s1, hmf, h⟩
  · exact hm
  · obtain ⟨h1, _, h3, h4⟩ := metaFor_maps hmf
    have h5 : s1.heap[ref]? = some m := by
      rcases h4 with h4 | ⟨sec, _, _, h4⟩
      · rw [h4]; exact hm
      · rw [h4, List.getElem?_append_left hr]; exact hm
    rcases h with rfl | ⟨_, _, _, _, _, hs⟩
    · exact h5
    · have hn : ref ≠ ref' := by
        rintro rfl
        rcases h3 k ref h1 with h | ⟨_, _, h⟩ | ⟨_, _, _, h, _⟩
        · exact hne (hf _ _ h)
        · exact hne ((hf _ _ h).trans hkd)
        · omega
      rw [(setSlot_maps hs).2.2.2.1 ref hn]
      exact h5

/-- A record is as it was as long as nothing above its block is signed and no call is about its block. -/
theorem record_untouched {l : SignState} {s s' : CState} {tr : List (CosOp × Out CosResp)} {op : CosOp} {out : Out CosResp}
    (hrun : Run C cfg (CState.start l) tr s) (h : s.step C cfg op = (out, s')) {k : HRST} {ref : Nat} {m : Meta}
    (h1 : s.hrsMeta k = some ref) (h2 : s.heap[ref]? = some m) (hno : op.about ≠ some k.hrs)
    (hle : s'.lss.hrs ≼ k.hrs) : s'.hrsMeta k = some ref ∧ s'.heap[ref]? = some m := by
  obtain ⟨f, hf, _⟩ := nonce_tag_inv hrun
  have hk := hf k ref h1
  rcases step_cases h with ⟨req, rnd, rfl, hp⟩ | ⟨req, rnd, rfl, _, hp⟩ | ⟨bs, r, k', _, _, e1, e2, hs⟩ |
    ⟨_, _, _, _, _, hc⟩ | ⟨_, _, _, rfl⟩ | ⟨_, _, rfl, _⟩
  · exact ⟨hp.maps.1 k ref h1, hp.elsewhere rfl hf h2 (by rw [hk]; intro e; exact hno (by rw [e]; rfl))⟩
  · exact ⟨hp.maps.1 k ref h1, hp.elsewhere rfl hf h2 (by rw [hk]; intro e; exact hno (by rw [e]; rfl))⟩
  · refine ⟨?_, by rw [hs.heap]; exact h2⟩
    rw [hs.pruned]
    have : k.less k' = false := by
      cases hl : k.less k' with
      | false => rfl
      | true =>
        have := (less_iff _ _).1 hl
        rw [hs.hrs] at hle
        exact absurd (HRS.lt_of_lt_of_le this hle) (HRS.lt_irrefl _)
    rw [this]
    exact h1
  · rw [hc.state]; exact ⟨h1, h2⟩
  · exact ⟨h1, h2⟩
  · exact ⟨h1, h2⟩

theorem records_untouched {l : SignState} {s s' : CState} {tr tr' : List (CosOp × Out CosResp)}
    (hrun : Run C cfg (CState.start l) tr s) (h : Run C cfg s tr' s') {k : HRST} {ref : Nat} {m : Meta}
    (h1 : s.hrsMeta k = some ref) (h2 : s.heap[ref]? = some m) (hno : ∀ c ∈ tr', c.1.about ≠ some k.hrs)
    (hle : s'.lss.hrs ≼ k.hrs) : s'.hrsMeta k = some ref ∧ s'.heap[ref]? = some m := by
  induction h generalizing tr with
  | nil => exact ⟨h1, h2⟩
  | @cons sa sb sc op out tr2 hs hnp ht ih =>
    obtain ⟨g1, g2⟩ := record_untouched hrun hs h1 h2 (hno _ (List.mem_cons_self ..))
      (HRS.le_trans (run_lss ht).1 hle)
    exact ih (hrun.append (.cons hs hnp (.nil _))) g1 g2 (fun c hc => hno c (List.mem_cons_of_mem _ hc)) hle

/-- C12, partial (2): a request that was re-signed with another time gets the same share signature and ephemeral public key
whenever it is repeated while the watermark is still there, if no call for or with a secret part was about that height, round
and step in between. The recorded signature and sign bytes stay as they are. Missing: such calls in between, which change the
nonce the request is signed with (`C12_parts_fails`). -/
theorem C12_resigned_partial (l : SignState) (s0 s1 s2 : CState) (tr0 tr : List (CosOp × Out CosResp)) (bs : Bytes)
    (k : HRST) (r : SignRes) (hrun0 : Run C cfg (CState.start l) tr0 s0) (hu : unpackHRST bs = .ok k)
    (hre : s0.lss.hrs = k.hrs) (h : sign C cfg s0 bs = (.ok r, s1)) (hfresh : r.nonce ≠ none)
    (hrun : Run C cfg s1 tr s2) (hw : s2.lss.hrs = k.hrs) (hno : ∀ c ∈ tr, c.1.about ≠ some k.hrs) :
    ∃ s3, sign C cfg s2 bs = (.ok r, s3) ∧ s3.lss = { s2.lss with ephemeralPublic := r.ephemeralPublic } ∧
      s3.heap = s2.heap := by
  rcases sign_ok_cases h with ⟨k', hc⟩ | ⟨k', ref, m, hf⟩
  · rw [hc.res] at hfresh; exact absurd rfl hfresh
  have := hf.unpack
  rw [hu] at this
  cases this
  obtain ⟨hl, b0, hb0, hne, hd⟩ := hf.again hre
  have hkk : k.less k = false := by
    cases hl : k.less k with
    | false => rfl
    | true => exact absurd ((less_iff _ _).1 hl) (HRS.lt_irrefl _)
  have hent : s1.hrsMeta k = some ref := by rw [hf.pruned, hkk]; exact hf.entry
  have hrec : s1.heap[ref]? = some m := by rw [hf.heap]; exact hf.record
  have hrun1 : Run C cfg (CState.start l) (tr0 ++ [(.sign bs, .ok (.signed r))]) s1 :=
    hrun0.append (.cons (by simp only [CState.step, h, Out.map]) (by simp) (.nil _))
  obtain ⟨g1, g2⟩ := records_untouched hrun1 hrun hent hrec hno (.inl hw)
  obtain ⟨q1, q2⟩ := (run_lss hrun).2 (hw.trans hf.hrs.symm)
  have hsb : s2.lss.signBytes = some b0 := by rw [q1, hl]; exact hb0
  have hsg : s2.lss.signature = s0.lss.signature := by rw [q2, hl]
  -- what the first call tells about the request
  obtain ⟨k', hu', hx⟩ := sign_ok C cfg h
  rw [hu] at hu'
  cases hu'
  have hx : signFresh C cfg s0 bs k = (.ok r, s1) := by
    rcases hx with ⟨_, _, _, _, h5⟩ | ⟨hlt, _⟩ | ⟨_, _, hx⟩
    · rw [h5] at hfresh; exact absurd rfl hfresh
    · rw [hre] at hlt; exact absurd hlt (HRS.lt_irrefl _)
    · exact hx
  have hsg0 : s0.lss.signature ≠ none := by
    intro e
    have hp := (C03_check s0.lss k).2.2.2.2.2 ⟨hre, by rw [hb0]; simp, e⟩
    unfold sign at h
    rw [hu] at h
    simp only [hp] at h
    cases h
  have hc : s2.lss.checkHRS k = .ok true :=
    (C03_check s2.lss k).2.2.1 hw (by rw [hsb]; simp) (by rw [hsg]; exact hsg0)
  have hod : onlyDifferByTimestamp k.step b0 bs = none := (onlyDiffer_iff _ _ _).2 hd
  have hst : s2.lss.step = k.step := by
    have := congrArg HRS.step hw
    exact this
  have e2 : sign C cfg s2 bs = signFresh C cfg s2 bs k := by
    unfold sign
    rw [hu]; simp only; rw [hc]; simp only
    have hs2 : s2.lss.signBytes.bytes = b0 := by rw [hsb]; rfl
    rw [hs2, if_neg hne, hst, hod]
  have hok2 : ∃ r2 s3, signFresh C cfg s2 bs k = (.ok r2, s3) := by
    unfold signFresh at hx ⊢
    rw [hf.entry] at hx; rw [g1]
    simp only at hx ⊢
    rw [hf.record] at hx; rw [g2]
    simp only at hx ⊢
    split at hx
    · simp at hx
    next h1 =>
    split at hx
    · simp at hx
    next h2 =>
    rw [if_neg h1, if_neg h2]
    generalize C.addScalars (m.used.map (·.share)) = ES at *
    generalize C.addElements (m.used.map (·.ephemeralSecretPublicKey)) = EP at *
    have hget : ∀ l : SignState, l.hrs = k.hrs →
        l.getErrorIfLessOrEqual k.height k.round k.step = some (.sameHRS ⟨k.height, k.round, k.step⟩) := by
      intro l hlk
      unfold SignState.hrs HRST.hrs at hlk
      simp only [HRS.mk.injEq] at hlk
      unfold SignState.getErrorIfLessOrEqual
      simp [hlk]
    unfold SignState.save
    simp only
    rw [hget _ (show SignState.hrs { s2.lss with ephemeralPublic := some EP } = k.hrs from hw)]
    exact ⟨_, _, rfl⟩
  obtain ⟨r2, s3, h2⟩ := hok2
  obtain ⟨ref2, m2, a1, a2, a3, a4, a5, a6, a7, a8, a9, a10, a11⟩ := signFresh_ok C cfg (.inl hw) h2
  rw [g1] at a1; cases a1
  rw [g2] at a2; cases a2
  have hr2 : r2 = r := by
    obtain ⟨x1, x2, x3⟩ := r2
    obtain ⟨y1, y2, y3⟩ := r
    have := hf.eph; have := hf.sig; have := hf.nonce
    simp_all
  exact ⟨s3, by rw [e2, h2, hr2], by rw [a11 hw, hr2], a6⟩

/-- The re-signed vote of the demo, repeated after calls about other blocks, the recorded request, and the recorded request with
another byte after it, which is signed anew. -/
example : ∃ r s1 s3, sign toy toyCfg (exec toy toyCfg toyStart [.getPart get1 (toyRnd 1), .getPart get2 (toyRnd 3),
      .setPart (part2 5) (toyRnd 7), .sign b1]).2 b2 = (.ok r, s1) ∧
    sign toy toyCfg (exec toy toyCfg s1 [.getPart get3 (toyRnd 9), .sign b1, .sign (b1 ++ [1])]).2 b2 = (.ok r, s3) := by
  have hr := exec_run toy toyCfg toyStart [.getPart get1 (toyRnd 1), .getPart get2 (toyRnd 3),
      .setPart (part2 5) (toyRnd 7), .sign b1] (by decide +kernel)
  have hok : (match (sign toy toyCfg (exec toy toyCfg toyStart [.getPart get1 (toyRnd 1), .getPart get2 (toyRnd 3),
      .setPart (part2 5) (toyRnd 7), .sign b1]).2 b2).1 with | .ok r => decide (r.nonce ≠ none) | _ => false) = true := by
    decide +kernel
  have hr2 := exec_run toy toyCfg (sign toy toyCfg (exec toy toyCfg toyStart [.getPart get1 (toyRnd 1), .getPart get2 (toyRnd 3),
      .setPart (part2 5) (toyRnd 7), .sign b1]).2 b2).2 [.getPart get3 (toyRnd 9), .sign b1, .sign (b1 ++ [1])] (by decide +kernel)
  have hw : (exec toy toyCfg (sign toy toyCfg (exec toy toyCfg toyStart [.getPart get1 (toyRnd 1), .getPart get2 (toyRnd 3),
      .setPart (part2 5) (toyRnd 7), .sign b1]).2 b2).2 [.getPart get3 (toyRnd 9), .sign b1, .sign (b1 ++ [1])]).2.lss.hrs =
      ⟨7, 1, 3⟩ := by decide +kernel
  have hno : ∀ c ∈ (exec toy toyCfg (sign toy toyCfg (exec toy toyCfg toyStart [.getPart get1 (toyRnd 1), .getPart get2 (toyRnd 3),
      .setPart (part2 5) (toyRnd 7), .sign b1]).2 b2).2 [.getPart get3 (toyRnd 9), .sign b1, .sign (b1 ++ [1])]).1,
      c.1.about ≠ some ⟨7, 1, 3⟩ := by decide +kernel
  have hre : (exec toy toyCfg toyStart [.getPart get1 (toyRnd 1), .getPart get2 (toyRnd 3),
      .setPart (part2 5) (toyRnd 7), .sign b1]).2.lss.hrs = ⟨7, 1, 3⟩ := by decide +kernel
  generalize exec toy toyCfg toyStart [.getPart get1 (toyRnd 1), .getPart get2 (toyRnd 3),
      .setPart (part2 5) (toyRnd 7), .sign b1] = x at *
  cases h : sign toy toyCfg x.2 b2 with
  | mk o s1 =>
    rw [h] at hok hr2 hw hno
    cases o with
    | ok r =>
      obtain ⟨s3, h3, _⟩ := C12_resigned_partial _ _ _ _ _ _ _ _ _ hr unpack_b2 hre h (by simpa using hok) hr2 hw hno
      exact ⟨r, s1, s3, rfl, h3⟩
    | err e => cases hok
    | panic => cases hok

/-- A record stays under its key as long as nothing above its block is signed. -/
theorem entry_stays {s s' : CState} {tr : List (CosOp × Out CosResp)} (h : Run C cfg s tr s') {k : HRST} {ref : Nat}
    (h1 : s.hrsMeta k = some ref) (hle : s'.lss.hrs ≼ k.hrs) : s'.hrsMeta k = some ref := by
  induction h with
  | nil => exact h1
  | @cons sa sb sc op out tr2 hs hnp ht ih =>
    refine ih ?_ hle
    have hle1 := HRS.le_trans (run_lss ht).1 hle
    rcases step_cases hs with ⟨_, _, _, hp⟩ | ⟨_, _, _, _, hp⟩ | ⟨bs, r, k', _, _, e1, e2, hs⟩ |
      ⟨_, _, _, _, _, hc⟩ | ⟨_, _, _, rfl⟩ | ⟨_, _, rfl, _⟩
    · exact hp.maps.1 k ref h1
    · exact hp.maps.1 k ref h1
    · rw [hs.pruned]
      have : k.less k' = false := by
        cases hl : k.less k' with
        | false => rfl
        | true =>
          have := (less_iff _ _).1 hl
          rw [hs.hrs] at hle1
          exact absurd (HRS.lt_of_lt_of_le this hle1) (HRS.lt_irrefl _)
      rw [this]
      exact h1
    · rw [hc.state]; exact h1
    · exact h1
    · exact h1

/-- C12, exactly, for re-signed requests: whatever came in between, as long as the watermark is still there a request that was
re-signed with another time is signed anew with the parts that the cosigner holds for it now (or refused, if their sum is no
scalar); so the answer is the same exactly if those parts give the same ephemeral public key and share signature. -/
theorem C12_resigned_exact (l : SignState) (s0 s1 s2 : CState) (tr0 tr : List (CosOp × Out CosResp)) (bs : Bytes)
    (k : HRST) (r : SignRes) (hrun0 : Run C cfg (CState.start l) tr0 s0) (hu : unpackHRST bs = .ok k)
    (hre : s0.lss.hrs = k.hrs) (h : sign C cfg s0 bs = (.ok r, s1)) (hfresh : r.nonce ≠ none)
    (hrun : Run C cfg s1 tr s2) (hw : s2.lss.hrs = k.hrs) :
    ∃ ref m, s2.hrsMeta k = some ref ∧ s2.heap[ref]? = some m ∧
      ∀ S P, S = C.addScalars ((m.peers.filter (fun p => p.share ≠ [])).map (·.share)) →
        P = C.addElements ((m.peers.filter (fun p => p.share ≠ [])).map (·.ephemeralSecretPublicKey)) →
        (S.length = 32 ∧ C.scMinimal S = true →
          (sign C cfg s2 bs).1 = .ok ⟨some P, some (C.signWithShare bs cfg.shareKey S cfg.pubKeyBytes P), some (ref, S)⟩) ∧
        (¬ (S.length = 32 ∧ C.scMinimal S = true) → sign C cfg s2 bs = (.err .ephemeralOutOfBounds, s2)) ∧
        ((∃ r' s3, sign C cfg s2 bs = (.ok r', s3) ∧ r'.signature = r.signature ∧ r'.ephemeralPublic = r.ephemeralPublic) ↔
          (S.length = 32 ∧ C.scMinimal S = true) ∧ r.ephemeralPublic = some P ∧
            r.signature = some (C.signWithShare bs cfg.shareKey S cfg.pubKeyBytes P)) := by
  rcases sign_ok_cases h with ⟨k', hc⟩ | ⟨k', ref, m, hf⟩
  · rw [hc.res] at hfresh; exact absurd rfl hfresh
  have := hf.unpack
  rw [hu] at this
  cases this
  obtain ⟨hl, b0, hb0, hne, hd⟩ := hf.again hre
  have hkk : k.less k = false := by
    cases hl : k.less k with
    | false => rfl
    | true => exact absurd ((less_iff _ _).1 hl) (HRS.lt_irrefl _)
  have hent : s1.hrsMeta k = some ref := by rw [hf.pruned, hkk]; exact hf.entry
  have g1 := entry_stays hrun hent (.inl hw)
  have hrun1 : Run C cfg (CState.start l) (tr0 ++ [(.sign bs, .ok (.signed r))]) s1 :=
    hrun0.append (.cons (by simp only [CState.step, h, Out.map]) (by simp) (.nil _))
  have hlt := run_ok (hrun1.append hrun) (start_ok l) k ref g1
  refine ⟨ref, s2.heap[ref], g1, List.getElem?_eq_getElem hlt, ?_⟩
  obtain ⟨q1, q2⟩ := (run_lss hrun).2 (hw.trans hf.hrs.symm)
  have hsb : s2.lss.signBytes = some b0 := by rw [q1, hl]; exact hb0
  have hsg : s2.lss.signature = s0.lss.signature := by rw [q2, hl]
  have hsg0 : s0.lss.signature ≠ none := by
    intro e
    have hp := (C03_check s0.lss k).2.2.2.2.2 ⟨hre, by rw [hb0]; simp, e⟩
    unfold sign at h
    rw [hu] at h
    simp only [hp] at h
    cases h
  have hc : s2.lss.checkHRS k = .ok true :=
    (C03_check s2.lss k).2.2.1 hw (by rw [hsb]; simp) (by rw [hsg]; exact hsg0)
  have hod : onlyDifferByTimestamp k.step b0 bs = none := (onlyDiffer_iff _ _ _).2 hd
  have hst : s2.lss.step = k.step := congrArg HRS.step hw
  have e2 : sign C cfg s2 bs = signFresh C cfg s2 bs k := by
    unfold sign
    rw [hu]; simp only; rw [hc]; simp only
    have hs2 : s2.lss.signBytes.bytes = b0 := by rw [hsb]; rfl
    rw [hs2, if_neg hne, hst, hod]
  intro S P hS hP
  have hget : ∀ l : SignState, l.hrs = k.hrs →
      l.getErrorIfLessOrEqual k.height k.round k.step = some (.sameHRS ⟨k.height, k.round, k.step⟩) := by
    intro l hlk
    unfold SignState.hrs HRST.hrs at hlk
    simp only [HRS.mk.injEq] at hlk
    unfold SignState.getErrorIfLessOrEqual
    simp [hlk]
  have e3 : signFresh C cfg s2 bs k =
      if S.length ≠ 32 then (.err .ephemeralOutOfBounds, s2)
      else if C.scMinimal S = false then (.err .ephemeralOutOfBounds, s2)
      else (.ok ⟨some P, some (C.signWithShare bs cfg.shareKey S cfg.pubKeyBytes P), some (ref, S)⟩,
        { s2 with lss := { s2.lss with ephemeralPublic := some P } }.prune k) := by
    unfold signFresh
    rw [g1]
    simp only
    rw [List.getElem?_eq_getElem hlt]
    have hS' : C.addScalars (s2.heap[ref].used.map (·.share)) = S := hS.symm
    have hP' : C.addElements (s2.heap[ref].used.map (·.ephemeralSecretPublicKey)) = P := hP.symm
    simp only
    rw [hS', hP']
    split
    · rfl
    · split
      · rfl
      · unfold SignState.save
        simp only
        rw [hget _ (show SignState.hrs { s2.lss with ephemeralPublic := some P } = k.hrs from hw)]
  by_cases hb : S.length = 32 ∧ C.scMinimal S = true
  · rw [if_neg (by simp [hb.1]), if_neg (by simp [hb.2])] at e3
    refine ⟨fun _ => by rw [e2, e3], fun h => absurd hb h, fun ⟨r', s3, h3, h4, h5⟩ => ?_, fun ⟨_, h4, h5⟩ => ?_⟩
    · rw [e2, e3] at h3
      simp only [Prod.mk.injEq, Out.ok.injEq] at h3
      obtain ⟨rfl, _⟩ := h3
      exact ⟨hb, h5.symm, h4.symm⟩
    · exact ⟨_, _, e2.trans e3, h5.symm, h4.symm⟩
  · have e4 : signFresh C cfg s2 bs k = (.err .ephemeralOutOfBounds, s2) := by
      rw [e3]
      split
      · rfl
      · rename_i h1
        split
        · rfl
        · rename_i h2
          exact absurd ⟨by simpa using h1, by simpa using h2⟩ hb
    refine ⟨fun h => absurd h hb, fun _ => e2.trans e4, fun ⟨r', s3, h3, _⟩ => ?_, fun h => absurd h.1 hb⟩
    rw [e2, e4] at h3
    simp at h3

/-- C12 (full statement) is false for re-signed requests: a part for the block that comes in between changes the nonce, so
that the same request gets another share signature and ephemeral public key. -/
theorem C12_parts_fails : ∃ tr s e, Run toy toyCfg toyStart tr s ∧
    tr.map (·.1) = [.getPart get1 (toyRnd 1), .getPart get2 (toyRnd 3), .sign b1, .sign b2, .setPart e (toyRnd 4), .sign b2] ∧
    (relAt tr 3).map (·.1) = some b2 ∧ (relAt tr 5).map (·.1) = some b2 ∧
    (relAt tr 5).map (·.2.signature) ≠ (relAt tr 3).map (·.2.signature) ∧
    (relAt tr 5).map (·.2.ephemeralPublic) ≠ (relAt tr 3).map (·.2.ephemeralPublic) ∧ s.lss.hrs = ⟨7, 1, 3⟩ := by
  refine ⟨_, _, { part2 5 with timestamp := ⟨1600000001, 0⟩ }, exec_run toy toyCfg toyStart
    [.getPart get1 (toyRnd 1), .getPart get2 (toyRnd 3), .sign b1, .sign b2,
    .setPart { part2 5 with timestamp := ⟨1600000001, 0⟩ } (toyRnd 4), .sign b2] (by decide +kernel), by decide +kernel,
    by decide +kernel, by decide +kernel, by decide +kernel, by decide +kernel, by decide +kernel⟩

/-- A part that comes in between, as in `C12_parts_fails`: the conditions of `C12_resigned_exact` with another answer. -/
example : ∃ s0 s1 s2 tr0 tr r, Run toy toyCfg toyStart tr0 s0 ∧ s0.lss.hrs = ⟨7, 1, 3⟩ ∧ sign toy toyCfg s0 b2 = (.ok r, s1) ∧
    r.nonce ≠ none ∧ Run toy toyCfg s1 tr s2 ∧ s2.lss.hrs = ⟨7, 1, 3⟩ ∧ tr ≠ [] ∧
    ¬ ∃ r' s3, sign toy toyCfg s2 b2 = (.ok r', s3) ∧ r'.signature = r.signature ∧ r'.ephemeralPublic = r.ephemeralPublic := by
  have hr := exec_run toy toyCfg toyStart [.getPart get1 (toyRnd 1), .getPart get2 (toyRnd 3), .sign b1] (by decide +kernel)
  have hre : (exec toy toyCfg toyStart [.getPart get1 (toyRnd 1), .getPart get2 (toyRnd 3), .sign b1]).2.lss.hrs = ⟨7, 1, 3⟩ := by
    decide +kernel
  have hok : (match (sign toy toyCfg (exec toy toyCfg toyStart [.getPart get1 (toyRnd 1), .getPart get2 (toyRnd 3),
      .sign b1]).2 b2).1 with | .ok r => r.nonce != none | _ => false) = true := by decide +kernel
  have hr2 := exec_run toy toyCfg (sign toy toyCfg (exec toy toyCfg toyStart [.getPart get1 (toyRnd 1), .getPart get2 (toyRnd 3),
      .sign b1]).2 b2).2 [.setPart { part2 5 with timestamp := ⟨1600000001, 0⟩ } (toyRnd 4)] (by decide +kernel)
  have hw : (exec toy toyCfg (sign toy toyCfg (exec toy toyCfg toyStart [.getPart get1 (toyRnd 1), .getPart get2 (toyRnd 3),
      .sign b1]).2 b2).2 [.setPart { part2 5 with timestamp := ⟨1600000001, 0⟩ } (toyRnd 4)]).2.lss.hrs = ⟨7, 1, 3⟩ := by
    decide +kernel
  have hdiff : (sign toy toyCfg (exec toy toyCfg (sign toy toyCfg (exec toy toyCfg toyStart [.getPart get1 (toyRnd 1),
      .getPart get2 (toyRnd 3), .sign b1]).2 b2).2 [.setPart { part2 5 with timestamp := ⟨1600000001, 0⟩ } (toyRnd 4)]).2 b2).1.map
        (·.signature) ≠ (sign toy toyCfg (exec toy toyCfg toyStart [.getPart get1 (toyRnd 1), .getPart get2 (toyRnd 3),
      .sign b1]).2 b2).1.map (·.signature) := by decide +kernel
  have hne : (exec toy toyCfg (sign toy toyCfg (exec toy toyCfg toyStart [.getPart get1 (toyRnd 1), .getPart get2 (toyRnd 3),
      .sign b1]).2 b2).2 [.setPart { part2 5 with timestamp := ⟨1600000001, 0⟩ } (toyRnd 4)]).1 ≠ [] := by decide +kernel
  generalize exec toy toyCfg toyStart [.getPart get1 (toyRnd 1), .getPart get2 (toyRnd 3), .sign b1] = x at *
  cases h : sign toy toyCfg x.2 b2 with
  | mk o s1 =>
    rw [h] at hok hr2 hw hdiff hne
    cases o with
    | ok r =>
      refine ⟨_, s1, _, _, _, r, hr, hre, h, by simpa using hok, hr2, hw, hne, ?_⟩
      rintro ⟨r', s3, h3, h4, _⟩
      rw [h3] at hdiff
      exact hdiff (by simp only [Out.map, h4])
    | err e => cases hok
    | panic => cases hok

end Horcrux
