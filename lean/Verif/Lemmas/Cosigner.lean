import Verif.Model.Cosigner
import Verif.Lemmas.SignState
import Verif.Lemmas.Unpack
namespace Horcrux
open Spec

/-! ### The relation "differ only by time" -/

theorem unpackHRST_ok {bs : Bytes} {k : HRST} (h : unpackHRST bs = .ok k) :
    (∃ p, decodeProposal bs = some p ∧ k = ⟨p.height, p.round, 1, p.timestamp.unixNano⟩) ∨
    (decodeProposal bs = none ∧ ∃ v, decodeVote bs = some v ∧ (v.type = 1 ∨ v.type = 2) ∧
      k = ⟨v.height, v.round, if v.type = 1 then 2 else 3, v.timestamp.unixNano⟩) := by
  unfold unpackHRST at h
  cases hp : decodeProposal bs with
  | some p => rw [hp] at h; simp at h; exact .inl ⟨p, rfl, h.symm⟩
  | none =>
    right
    rw [hp] at h
    simp only at h
    refine ⟨rfl, ?_⟩
    cases hv : decodeVote bs with
    | none => rw [hv] at h; simp at h
    | some v =>
      rw [hv] at h
      simp only [voteTypeToStep] at h
      refine ⟨v, rfl, ?_⟩
      by_cases h1 : v.type = 1
      · simp [h1] at h; simp [h1, ← h, stepPrevote]
      · by_cases h2 : v.type = 2
        · simp [h2] at h; simp [h2, ← h, stepPrecommit]
        · simp [h1, h2] at h

theorem unpackHRST_step {bs : Bytes} {k : HRST} (h : unpackHRST bs = .ok k) :
    k.step = 1 ∨ k.step = 2 ∨ k.step = 3 := by
  rcases unpackHRST_ok h with ⟨p, _, rfl⟩ | ⟨_, v, _, h1, rfl⟩
  · exact .inl rfl
  · rcases h1 with h1 | h1 <;> simp [h1]

theorem Spec.DifferOnlyByTime.refl_of_unpack {bs : Bytes} {k : HRST} (h : unpackHRST bs = .ok k) :
    DifferOnlyByTime k.step bs bs := by
  rcases unpackHRST_ok h with ⟨p, hp, rfl⟩ | ⟨_, v, hv, h1, rfl⟩
  · exact .inl ⟨rfl, p, p, hp, hp, rfl, rfl, rfl, rfl, rfl, rfl⟩
  · refine .inr ⟨?_, v, v, hv, hv, rfl, rfl, rfl, rfl, rfl⟩
    rcases h1 with h1 | h1 <;> simp [h1]

theorem Spec.DifferOnlyByTime.symm {step : Int} {a b : Bytes} (h : DifferOnlyByTime step a b) :
    DifferOnlyByTime step b a := by
  rcases h with ⟨h, p, q, hp, hq, h1, h2, h3, h4, h5, h6⟩ | ⟨h, p, q, hp, hq, h1, h2, h3, h4, h5⟩
  · exact .inl ⟨h, q, p, hq, hp, h1.symm, h2.symm, h3.symm, h4.symm, h5.symm, h6.symm⟩
  · exact .inr ⟨h, q, p, hq, hp, h1.symm, h2.symm, h3.symm, h4.symm, h5.symm⟩

theorem Spec.DifferOnlyByTime.trans {step : Int} {a b c : Bytes} (h : DifferOnlyByTime step a b)
    (h' : DifferOnlyByTime step b c) : DifferOnlyByTime step a c := by
  rcases h with ⟨h, p, q, hp, hq, h1, h2, h3, h4, h5, h6⟩ | ⟨h, p, q, hp, hq, h1, h2, h3, h4, h5⟩
  · rcases h' with ⟨h', p', q', hp', hq', g1, g2, g3, g4, g5, g6⟩ | ⟨h', _⟩
    · rw [hq] at hp'; cases hp'
      exact .inl ⟨h, p, q', hp, hq', h1.trans g1, h2.trans g2, h3.trans g3, h4.trans g4, h5.trans g5, h6.trans g6⟩
    · omega
  · rcases h' with ⟨h', _⟩ | ⟨h', p', q', hp', hq', g1, g2, g3, g4, g5⟩
    · omega
    · rw [hq] at hp'; cases hp'
      exact .inr ⟨h, p, q', hp, hq', h1.trans g1, h2.trans g2, h3.trans g3, h4.trans g4, h5.trans g5⟩

/-! ### What each step does -/

section
variable (C : Crypto) (cfg : CosignerCfg)

theorem checkHRS_false {s : SignState} {k : HRST} (h : s.checkHRS k = .ok false) : s.hrs ≺ k.hrs := by
  obtain ⟨sh, sr, ss, eph, sg, sb, c⟩ := s
  obtain ⟨kh, kr, ks, kt⟩ := k
  unfold SignState.checkHRS at h
  unfold SignState.hrs HRST.hrs Spec.HRS.lt
  simp only at h ⊢
  revert h
  (repeat' split) <;> simp <;> grind

theorem checkHRS_true {s : SignState} {k : HRST} (h : s.checkHRS k = .ok true) :
    s.hrs = k.hrs ∧ s.signBytes ≠ none ∧ s.signature ≠ none := by
  obtain ⟨sh, sr, ss, eph, sg, sb, c⟩ := s
  obtain ⟨kh, kr, ks, kt⟩ := k
  unfold SignState.checkHRS at h
  unfold SignState.hrs HRST.hrs
  simp only [HRS.mk.injEq] at h ⊢
  revert h
  (repeat' split) <;> simp <;> grind

/-- The state a fresh signature at `k` leaves behind. -/
theorem signFresh_ok {s s' : CState} {bs : Bytes} {k : HRST} {r : SignRes}
    (hle : s.lss.hrs ≼ k.hrs) (h : signFresh C cfg s bs k = (.ok r, s')) :
    ∃ ref m, s.hrsMeta k = some ref ∧ s.heap[ref]? = some m ∧
      r.nonce = some (ref, C.addScalars (m.used.map (·.share))) ∧
      r.ephemeralPublic = some (C.addElements (m.used.map (·.ephemeralSecretPublicKey))) ∧
      r.signature = some (C.signWithShare bs cfg.shareKey (C.addScalars (m.used.map (·.share)))
        cfg.pubKeyBytes (C.addElements (m.used.map (·.ephemeralSecretPublicKey)))) ∧
      s'.heap = s.heap ∧
      (∀ k', s'.hrsMeta k' = if k'.less k then none else s.hrsMeta k') ∧
      s'.lss.hrs = k.hrs ∧
      s'.lss.ephemeralPublic = r.ephemeralPublic ∧
      (s.lss.hrs ≺ k.hrs → s'.lss.signBytes = some bs ∧ s'.lss.signature = r.signature) ∧
      (s.lss.hrs = k.hrs → s'.lss = { s.lss with ephemeralPublic := r.ephemeralPublic }) := by
  unfold signFresh at h
  cases hm : s.hrsMeta k with
  | none => rw [hm] at h; simp at h
  | some ref =>
    rw [hm] at h
    simp only at h
    cases hh : s.heap[ref]? with
    | none => rw [hh] at h; simp at h
    | some m =>
      rw [hh] at h
      simp only at h
      split at h
      · simp at h
      split at h
      · simp at h
      refine ⟨ref, m, rfl, hh, ?_⟩
      generalize hES : C.addScalars (m.used.map (·.share)) = ES at *
      generalize hEP : C.addElements (m.used.map (·.ephemeralSecretPublicKey)) = EP at *
      generalize hSG : C.signWithShare bs cfg.shareKey ES cfg.pubKeyBytes EP = SG at *
      generalize hl : ({ s.lss with ephemeralPublic := some EP } : SignState) = l at *
      have hlh : l.hrs = s.lss.hrs := by rw [← hl]; rfl
      rcases hle with heq | hlt
      · -- same HRS
        have hnlt : ¬ l.hrs ≺ (⟨k.height, k.round, k.step, some SG, some bs⟩ : SSC).hrs := by
          rw [hlh, heq]; exact HRS.lt_irrefl _
        have h2 := l.save_err _ hnlt
        have h1 : (l.save ⟨k.height, k.round, k.step, some SG, some bs⟩).1
            = some (.sameHRS ⟨k.height, k.round, k.step⟩) := by
          have e : l.getErrorIfLessOrEqual k.height k.round k.step = some (.sameHRS ⟨k.height, k.round, k.step⟩) := by
            have : l.hrs = k.hrs := by rw [hlh, heq]
            unfold SignState.hrs HRST.hrs at this
            simp only [HRS.mk.injEq] at this
            unfold SignState.getErrorIfLessOrEqual
            simp [this]
          unfold SignState.save
          simp only [e]
        generalize hsv : l.save ⟨k.height, k.round, k.step, some SG, some bs⟩ = sv at *
        obtain ⟨e, l2⟩ := sv
        simp only at h h1 h2
        subst h1 h2
        simp only [Prod.mk.injEq, Out.ok.injEq] at h
        obtain ⟨rfl, rfl⟩ := h
        refine ⟨rfl, rfl, rfl, rfl, fun k' => rfl, ?_, ?_, ?_, ?_⟩
        · show l2.hrs = _; rw [hlh, heq]
        · show l2.ephemeralPublic = _; rw [← hl]
        · intro hlt; rw [heq] at hlt; exact absurd hlt (HRS.lt_irrefl _)
        · intro _; exact hl.symm
      · have hlt' : l.hrs ≺ (⟨k.height, k.round, k.step, some SG, some bs⟩ : SSC).hrs := by
          rw [hlh]; exact hlt
        have hsv := l.save_ok _ hlt'
        rw [hsv] at h
        simp only [Prod.mk.injEq, Out.ok.injEq] at h
        obtain ⟨rfl, rfl⟩ := h
        refine ⟨rfl, rfl, rfl, rfl, fun k' => rfl, rfl, ?_, ?_, ?_⟩
        · show l.ephemeralPublic = _; rw [← hl]
        · intro _; exact ⟨rfl, rfl⟩
        · intro heq; rw [heq] at hlt; exact absurd hlt (HRS.lt_irrefl _)

theorem signFresh_not_ok {s s' : CState} {bs : Bytes} {k : HRST} {o : Out SignRes}
    (hle : s.lss.hrs ≼ k.hrs) (h : signFresh C cfg s bs k = (o, s')) (ho : ∀ r, o ≠ .ok r) : s' = s := by
  unfold signFresh at h
  cases hm : s.hrsMeta k with
  | none => rw [hm] at h; simp at h; exact h.2.symm
  | some ref =>
    rw [hm] at h
    simp only at h
    cases hh : s.heap[ref]? with
    | none => rw [hh] at h; simp at h; exact h.2.symm
    | some m =>
      rw [hh] at h
      simp only at h
      split at h
      · simp at h; exact h.2.symm
      split at h
      · simp at h; exact h.2.symm
      exfalso
      generalize hES : C.addScalars (m.used.map (·.share)) = ES at *
      generalize hEP : C.addElements (m.used.map (·.ephemeralSecretPublicKey)) = EP at *
      generalize hSG : C.signWithShare bs cfg.shareKey ES cfg.pubKeyBytes EP = SG at *
      generalize hl : ({ s.lss with ephemeralPublic := some EP } : SignState) = l at *
      have hlh : l.hrs = s.lss.hrs := by rw [← hl]; rfl
      rcases hle with heq | hlt
      · have h1 : (l.save ⟨k.height, k.round, k.step, some SG, some bs⟩).1
            = some (.sameHRS ⟨k.height, k.round, k.step⟩) := by
          have e : l.getErrorIfLessOrEqual k.height k.round k.step = some (.sameHRS ⟨k.height, k.round, k.step⟩) := by
            have : l.hrs = k.hrs := by rw [hlh, heq]
            unfold SignState.hrs HRST.hrs at this
            simp only [HRS.mk.injEq] at this
            unfold SignState.getErrorIfLessOrEqual
            simp [this]
          unfold SignState.save
          simp only [e]
        generalize hsv : l.save ⟨k.height, k.round, k.step, some SG, some bs⟩ = sv at *
        obtain ⟨e, l2⟩ := sv
        simp only at h h1
        subst h1
        simp only [Prod.mk.injEq] at h
        exact ho _ h.1.symm
      · have hlt' : l.hrs ≺ (⟨k.height, k.round, k.step, some SG, some bs⟩ : SSC).hrs := by
          rw [hlh]; exact hlt
        rw [l.save_ok _ hlt'] at h
        simp only [Prod.mk.injEq] at h
        exact ho _ h.1.symm

/-- Everything a successful `sign` can have done. -/
theorem sign_ok {s s' : CState} {bs : Bytes} {r : SignRes} (h : sign C cfg s bs = (.ok r, s')) :
    ∃ k, unpackHRST bs = .ok k ∧
     ((s.lss.hrs = k.hrs ∧ s.lss.signBytes = some bs ∧ s.lss.signature ≠ none ∧ s' = s ∧
        r = ⟨s.lss.ephemeralPublic, s.lss.signature, none⟩) ∨
      (s.lss.hrs ≺ k.hrs ∧ signFresh C cfg s bs k = (.ok r, s')) ∨
      (s.lss.hrs = k.hrs ∧ (∃ b0, s.lss.signBytes = some b0 ∧ bs ≠ b0 ∧ DifferOnlyByTime k.step b0 bs) ∧
        signFresh C cfg s bs k = (.ok r, s'))) := by
  unfold sign at h
  cases hu : unpackHRST bs with
  | panic => rw [hu] at h; simp at h
  | err e => rw [hu] at h; simp at h
  | ok k =>
    rw [hu] at h
    refine ⟨k, rfl, ?_⟩
    simp only at h
    cases hc : s.lss.checkHRS k with
    | panic => rw [hc] at h; simp at h
    | err e => rw [hc] at h; simp at h
    | ok b =>
      rw [hc] at h
      cases b with
      | false =>
        simp only at h
        exact .inr (.inl ⟨checkHRS_false hc, h⟩)
      | true =>
        simp only at h
        obtain ⟨h1, h2, h3⟩ := checkHRS_true hc
        cases hsb : s.lss.signBytes with
        | none => exact absurd hsb h2
        | some b0 =>
          rw [hsb] at h
          have hbb : Slice.bytes (some b0) = b0 := rfl
          rw [hbb] at h
          by_cases hb : bs = b0
          · rw [if_pos hb] at h
            simp only [Prod.mk.injEq, Out.ok.injEq] at h
            subst hb
            exact .inl ⟨h1, rfl, h3, h.2.symm, h.1.symm⟩
          · rw [if_neg hb] at h
            cases ho : onlyDifferByTimestamp s.lss.step b0 bs with
            | some e => rw [ho] at h; simp at h
            | none =>
              rw [ho] at h
              simp only at h
              refine .inr (.inr ⟨h1, ⟨b0, rfl, hb, ?_⟩, h⟩)
              rw [onlyDiffer_iff] at ho
              have : s.lss.step = k.step := congrArg HRS.step h1
              rwa [this] at ho

/-- An unsuccessful `sign` changes nothing. -/
theorem sign_not_ok {s s' : CState} {bs : Bytes} {o : Out SignRes} (h : sign C cfg s bs = (o, s'))
    (ho : ∀ r, o ≠ .ok r) : s' = s := by
  unfold sign at h
  cases hu : unpackHRST bs with
  | panic => rw [hu] at h; simp at h; exact h.2.symm
  | err e => rw [hu] at h; simp at h; exact h.2.symm
  | ok k =>
    rw [hu] at h
    simp only at h
    cases hc : s.lss.checkHRS k with
    | panic => rw [hc] at h; simp at h; exact h.2.symm
    | err e => rw [hc] at h; simp at h; exact h.2.symm
    | ok b =>
      rw [hc] at h
      cases b with
      | false => exact signFresh_not_ok C cfg (Or.inr (checkHRS_false hc)) h ho
      | true =>
        simp only at h
        split at h
        · simp only [Prod.mk.injEq] at h; exact absurd h.1.symm (ho _)
        · split at h
          · simp at h; exact h.2.symm
          · exact signFresh_not_ok C cfg (Or.inl (checkHRS_true hc).1) h ho

theorem setMeta_lss (s : CState) (k : HRST) (ref : Nat) : (s.setMeta k ref).lss = s.lss := rfl

theorem setSlot_spec {s s' : CState} {ref : Nat} {i : Int} {p : PeerMeta} (h : s.setSlot ref i p = some s') :
    ∃ m, s.heap[ref]? = some m ∧ 0 ≤ i ∧ i.toNat < m.peers.length ∧
      s' = { s with heap := s.heap.set ref { m with peers := m.peers.set i.toNat p } } := by
  unfold CState.setSlot at h
  cases hm : s.heap[ref]? with
  | none => rw [hm] at h; simp at h
  | some m =>
    rw [hm] at h
    simp only at h
    cases hg : goIndex m.peers i with
    | none => rw [hg] at h; simp at h
    | some x =>
      rw [hg] at h
      simp only [Option.some.injEq] at h
      unfold goIndex at hg
      split at hg
      · simp at hg
      · rw [List.getElem?_eq_some_iff] at hg
        obtain ⟨hlt, _⟩ := hg
        exact ⟨m, rfl, by omega, hlt, h.symm⟩

theorem dealSharesFor_spec {s s' : CState} {k : HRST} {rnd : Rand} {ref : Nat}
    (h : dealSharesFor C cfg s k rnd = some (ref, s')) :
    (s.hrsMeta k = some ref ∧ s' = s) ∨
    (s.hrsMeta k = none ∧ ref = s.heap.length ∧ ∃ secret, rnd.secret = some secret ∧
      s' = CState.setMeta { s with heap := s.heap ++ [⟨secret, C.dealShares secret rnd.deal cfg.threshold cfg.total,
        List.replicate cfg.total ⟨[], []⟩⟩] } k s.heap.length) := by
  unfold dealSharesFor at h
  cases hm : s.hrsMeta k with
  | some ref' =>
    rw [hm] at h; simp only [Option.some.injEq, Prod.mk.injEq] at h
    obtain ⟨rfl, rfl⟩ := h
    exact .inl ⟨rfl, rfl⟩
  | none =>
    rw [hm] at h
    simp only at h
    cases hr : rnd.secret with
    | none => rw [hr] at h; simp at h
    | some secret =>
      rw [hr] at h
      simp only [Option.some.injEq, Prod.mk.injEq] at h
      exact .inr ⟨rfl, h.1.symm, secret, rfl, h.2.symm⟩

end

/-! ### Runs -/

theorem Run.append {C : Crypto} {cfg : CosignerCfg} {s1 s2 s3 : CState} {t1 t2 : List (CosOp × Out CosResp)}
    (h1 : Run C cfg s1 t1 s2) (h2 : Run C cfg s2 t2 s3) : Run C cfg s1 (t1 ++ t2) s3 := by
  induction h1 with
  | nil => exact h2
  | cons hstep hnp _ ih => exact .cons hstep hnp (ih h2)

/-- Split a run at any point. -/
theorem Run.split {C : Crypto} {cfg : CosignerCfg} {s1 s3 : CState} {t1 t2 : List (CosOp × Out CosResp)}
    (h : Run C cfg s1 (t1 ++ t2) s3) : ∃ s2, Run C cfg s1 t1 s2 ∧ Run C cfg s2 t2 s3 := by
  induction t1 generalizing s1 with
  | nil => exact ⟨s1, .nil _, h⟩
  | cons e t1 ih =>
    cases h with
    | cons hstep hnp htail =>
      obtain ⟨s2, ha, hb⟩ := ih htail
      exact ⟨s2, .cons hstep hnp ha, hb⟩

/-- Induction over a run by its last step. -/
theorem Run.snoc_induction {C : Crypto} {cfg : CosignerCfg} {s0 : CState}
    {P : List (CosOp × Out CosResp) → CState → Prop} (h0 : P [] s0)
    (hs : ∀ tr s op out s', Run C cfg s0 tr s → P tr s → s.step C cfg op = (out, s') → out ≠ .panic →
      P (tr ++ [(op, out)]) s')
    {tr : List (CosOp × Out CosResp)} {s : CState} (h : Run C cfg s0 tr s) : P tr s := by
  suffices H : ∀ s1 t2 s2, Run C cfg s1 t2 s2 → ∀ t1, Run C cfg s0 t1 s1 → P t1 s1 → P (t1 ++ t2) s2 from
    H s0 tr s h [] (.nil _) h0
  intro s1 t2 s2 h
  induction h with
  | nil => intro t1 _ hp; simpa using hp
  | cons hstep hnp _ ih =>
    intro t1 hr hp
    have := ih (t1 ++ [_]) (hr.append (.cons hstep hnp (.nil _))) (hs _ _ _ _ _ hr hp hstep hnp)
    simpa using this

section
variable {C : Crypto} {cfg : CosignerCfg}

/-- The new record a deal creates. -/
def newMeta (C : Crypto) (cfg : CosignerCfg) (secret : Bytes) (rnd : Rand) : Meta :=
  ⟨secret, C.dealShares secret rnd.deal cfg.threshold cfg.total, List.replicate cfg.total ⟨[], []⟩⟩

theorem metaFor_spec {s s1 : CState} {k kd : HRST} {rnd : Rand} {ref : Nat}
    (h : metaFor C cfg s k kd rnd = some (ref, s1)) :
    (s.hrsMeta k = some ref ∧ s1 = s) ∨
    (s.hrsMeta k = none ∧ s.hrsMeta kd = some ref ∧ s1 = s.setMeta k ref) ∨
    (s.hrsMeta k = none ∧ s.hrsMeta kd = none ∧ ref = s.heap.length ∧ ∃ secret, rnd.secret = some secret ∧
      s1 = CState.setMeta (CState.setMeta { s with heap := s.heap ++ [newMeta C cfg secret rnd] } kd s.heap.length)
        k s.heap.length) := by
  unfold metaFor at h
  cases hm : s.hrsMeta k with
  | some r =>
    rw [hm] at h; simp only [Option.some.injEq, Prod.mk.injEq] at h
    exact .inl ⟨by rw [h.1], h.2.symm⟩
  | none =>
    rw [hm] at h
    simp only at h
    cases hd : dealSharesFor C cfg s kd rnd with
    | none => rw [hd] at h; simp at h
    | some p =>
      obtain ⟨ref', s1'⟩ := p
      rw [hd] at h
      simp only [Option.some.injEq, Prod.mk.injEq] at h
      obtain ⟨rfl, rfl⟩ := h
      rcases dealSharesFor_spec C cfg hd with ⟨h1, rfl⟩ | ⟨h1, rfl, sec, h2, rfl⟩
      · exact .inr (.inl ⟨rfl, h1, rfl⟩)
      · exact .inr (.inr ⟨rfl, h1, rfl, sec, h2, rfl⟩)

theorem metaFor_lss {s s1 : CState} {k kd : HRST} {rnd : Rand} {ref : Nat}
    (h : metaFor C cfg s k kd rnd = some (ref, s1)) : s1.lss = s.lss := by
  rcases metaFor_spec h with ⟨_, rfl⟩ | ⟨_, _, rfl⟩ | ⟨_, _, _, _, _, rfl⟩ <;> rfl

/-- What a secret-part call can do to the state: nothing, enter a record under key `k`, and then possibly write one
slot of it (`W ref i p` says which writes are possible). -/
def PartStep (C : Crypto) (cfg : CosignerCfg) (s : CState) (k kd : HRST) (rnd : Rand)
    (W : Meta → Int → PeerMeta → Prop) (s' : CState) : Prop :=
  s' = s ∨ ∃ ref s1, metaFor C cfg s k kd rnd = some (ref, s1) ∧
    (s' = s1 ∨ ∃ m i p, s1.heap[ref]? = some m ∧ W m i p ∧ s1.setSlot ref i p = some s')

/-- The own slot contents of a record. -/
def ownSlot (C : Crypto) (cfg : CosignerCfg) (m : Meta) (p : PeerMeta) : Prop :=
  goIndex m.dealtShares (cfg.id - 1) = some p.share ∧ p.ephemeralSecretPublicKey = C.scalarMultiplyBase m.secret

theorem getPart_step {s s' : CState} {req : GetPartReq} {rnd : Rand} {o : Out SecretPart}
    (h : getPart C cfg s req rnd = (o, s')) :
    PartStep C cfg s req.key req.key rnd (fun m i p => i = cfg.id - 1 ∧ ownSlot C cfg m p) s' := by
  unfold getPart at h
  simp only at h
  split at h
  · simp at h; exact .inl h.2.symm
  · next ref s1 heq =>
    refine .inr ⟨ref, s1, heq, ?_⟩
    split at h
    · simp at h; exact .inl h.2.symm
    · next m hm =>
      split at h
      · simp at h; exact .inl h.2.symm
      · next own hown =>
        split at h
        · simp at h; exact .inl h.2.symm
        · next s2 hs2 =>
          right
          refine ⟨m, _, ⟨own, C.scalarMultiplyBase m.secret⟩, hm, ⟨rfl, hown, rfl⟩, ?_⟩
          (repeat' split at h) <;> simp only [Prod.mk.injEq] at h <;> obtain ⟨_, rfl⟩ := h <;> exact hs2

theorem setPart_step {s s' : CState} {req : SetPartReq} {rnd : Rand} {o : Out Unit}
    (h : setPart C cfg s req rnd = (o, s')) :
    (s' = s ∨ o = .ok () ∨ o = .err .decryptFailed ∨ o = .panic) ∧
    PartStep C cfg s req.key ⟨req.height, req.round, req.step, GoTime.zero.unixNano⟩ rnd
      (fun _ i p => i = req.sourceID - 1 ∧ p.ephemeralSecretPublicKey = req.ephemeralPublic.bytes ∧
        C.rsaDecrypt cfg.rsaKey req.encrypted.bytes = some p.share ∧ o = .ok ()) s' := by
  unfold setPart at h
  simp only at h
  split at h
  · simp at h; exact ⟨.inl h.2.symm, .inl h.2.symm⟩
  split at h
  · simp at h; exact ⟨.inl h.2.symm, .inl h.2.symm⟩
  split at h
  · simp at h; exact ⟨.inl h.2.symm, .inl h.2.symm⟩
  split at h
  · simp at h; exact ⟨.inl h.2.symm, .inl h.2.symm⟩
  next ref s1 heq =>
  split at h
  · simp at h; exact ⟨.inr (.inr (.inl h.1.symm)), .inr ⟨ref, s1, heq, .inl h.2.symm⟩⟩
  · next share hsh =>
    split at h
    · simp at h; exact ⟨.inr (.inr (.inr h.1.symm)), .inr ⟨ref, s1, heq, .inl h.2.symm⟩⟩
    · next s2 hs2 =>
      simp only [Prod.mk.injEq] at h
      obtain ⟨rfl, rfl⟩ := h
      obtain ⟨m, hm, _⟩ := setSlot_spec hs2
      exact ⟨.inr (.inl rfl), .inr ⟨ref, s1, heq, .inr ⟨m, _, _, hm, ⟨rfl, rfl, hsh, rfl⟩, hs2⟩⟩⟩

theorem PartStep.lss {s s' : CState} {k kd : HRST} {rnd : Rand} {W : Meta → Int → PeerMeta → Prop}
    (h : PartStep C cfg s k kd rnd W s') : s'.lss = s.lss := by
  rcases h with rfl | ⟨ref, s1, hm, rfl | ⟨_, _, _, _, _, h2⟩⟩
  · rfl
  · exact metaFor_lss hm
  · obtain ⟨_, _, _, _, rfl⟩ := setSlot_spec h2
    show s1.lss = s.lss
    exact metaFor_lss hm

/-- Getting and setting parts never touches the sign state. -/
theorem getPart_lss {s s' : CState} {req : GetPartReq} {rnd : Rand} {o : Out SecretPart}
    (h : getPart C cfg s req rnd = (o, s')) : s'.lss = s.lss := (getPart_step h).lss

theorem setPart_lss {s s' : CState} {req : SetPartReq} {rnd : Rand} {o : Out Unit}
    (h : setPart C cfg s req rnd = (o, s')) : s'.lss = s.lss := (setPart_step h).2.lss

/-- The sign state after a step, by kind of step. -/
theorem step_lss {s s' : CState} {op : CosOp} {out : Out CosResp} (h : s.step C cfg op = (out, s')) :
    s.lss.hrs ≼ s'.lss.hrs ∧
    (s'.lss.hrs = s.lss.hrs → s'.lss.signBytes = s.lss.signBytes ∧ s'.lss.signature = s.lss.signature) := by
  cases op with
  | getPart req rnd =>
    simp only [CState.step, Prod.mk.injEq] at h
    have : s'.lss = s.lss := by
      have := getPart_lss (C := C) (cfg := cfg) (s := s) (req := req) (rnd := rnd) rfl
      rw [← h.2]; exact this
    rw [this]; exact ⟨HRS.le_refl _, fun _ => ⟨rfl, rfl⟩⟩
  | setPart req rnd =>
    simp only [CState.step, Prod.mk.injEq] at h
    have : s'.lss = s.lss := by
      have := setPart_lss (C := C) (cfg := cfg) (s := s) (req := req) (rnd := rnd) rfl
      rw [← h.2]; exact this
    rw [this]; exact ⟨HRS.le_refl _, fun _ => ⟨rfl, rfl⟩⟩
  | saveLSS r =>
    simp only [CState.step] at h
    have hs' : s'.lss = (s.lss.save r).2 := by
      generalize s.lss.save r = x at h
      obtain ⟨e, l⟩ := x
      cases e <;> simp only [Prod.mk.injEq] at h <;> rw [← h.2]
    rw [hs']
    refine ⟨SignState.save_mono _ _, fun heq => ?_⟩
    by_cases hlt : s.lss.hrs ≺ r.hrs
    · rw [SignState.save_hrs, if_pos hlt] at heq
      rw [heq] at hlt; exact absurd hlt (HRS.lt_irrefl _)
    · rw [SignState.save_err _ _ hlt]; exact ⟨rfl, rfl⟩
  | sign bs =>
    simp only [CState.step, Prod.mk.injEq] at h
    generalize hsg : sign C cfg s bs = x at h
    obtain ⟨o, s1⟩ := x
    simp only at h
    obtain ⟨_, rfl⟩ := h
    by_cases ho : ∃ r, o = .ok r
    · obtain ⟨r, rfl⟩ := ho
      obtain ⟨k, _, h1 | ⟨hlt, hf⟩ | ⟨heq, _, hf⟩⟩ := sign_ok C cfg hsg
      · obtain ⟨_, _, _, rfl, _⟩ := h1
        exact ⟨HRS.le_refl _, fun _ => ⟨rfl, rfl⟩⟩
      · obtain ⟨_, _, _, _, _, _, _, _, _, hh, _⟩ := signFresh_ok C cfg (Or.inr hlt) hf
        refine ⟨by rw [hh]; exact Or.inr hlt, fun he => ?_⟩
        rw [hh] at he; rw [he] at hlt; exact absurd hlt (HRS.lt_irrefl _)
      · obtain ⟨_, _, _, _, _, _, _, _, _, hh, _, _, hl⟩ := signFresh_ok C cfg (Or.inl heq) hf
        refine ⟨by rw [hh]; exact Or.inl heq, fun _ => ?_⟩
        rw [hl heq]; exact ⟨rfl, rfl⟩
    · have := sign_not_ok C cfg hsg (fun r hr => ho ⟨r, hr⟩)
      subst this
      exact ⟨HRS.le_refl _, fun _ => ⟨rfl, rfl⟩⟩

theorem run_lss {s s' : CState} {tr : List (CosOp × Out CosResp)} (h : Run C cfg s tr s') :
    s.lss.hrs ≼ s'.lss.hrs ∧
    (s'.lss.hrs = s.lss.hrs → s'.lss.signBytes = s.lss.signBytes ∧ s'.lss.signature = s.lss.signature) := by
  induction h with
  | nil => exact ⟨HRS.le_refl _, fun _ => ⟨rfl, rfl⟩⟩
  | cons hstep hnp htail ih =>
    have h1 := step_lss hstep
    refine ⟨HRS.le_trans h1.1 ih.1, fun he => ?_⟩
    have h2 : _ := HRS.le_antisymm (he ▸ ih.1) h1.1
    have h3 := h1.2 h2
    have h4 := ih.2 (he.trans h2.symm)
    exact ⟨h4.1.trans h3.1, h4.2.trans h3.2⟩

/-- Outcome of a `sign` step in a run. -/
theorem step_sign {s s' : CState} {bs : Bytes} {r : SignRes}
    (h : s.step C cfg (.sign bs) = (.ok (.signed r), s')) : sign C cfg s bs = (.ok r, s') := by
  simp only [CState.step] at h
  generalize sign C cfg s bs = x at h
  obtain ⟨o, s1⟩ := x
  cases o with
  | ok r' =>
    simp only [Out.map, Prod.mk.injEq, Out.ok.injEq, CosResp.signed.injEq] at h
    rw [h.1, h.2]
  | err e => simp [Out.map] at h
  | panic => simp [Out.map] at h

end
end Horcrux
