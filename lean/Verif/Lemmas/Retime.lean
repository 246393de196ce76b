import Verif.Spec.Retime
import Verif.Lemmas.System
/-
A vote signed again with another time: what the last sign state does to a round.
-/
namespace Horcrux
open Spec

/-- The same cosigner with another last sign state. -/
def CState.withLss (s : CState) (l : SignState) : CState := { s with lss := l }

theorem withLss_self (s : CState) : s.withLss s.lss = s := rfl
theorem withLss_withLss (s : CState) (l l' : SignState) : (s.withLss l).withLss l' = s.withLss l' := rfl

section
variable (C : Crypto) (cfg : CosignerCfg)

theorem dealSharesFor_withLss (s : CState) (l : SignState) (k : HRST) (rnd : Rand) :
    dealSharesFor C cfg (s.withLss l) k rnd = (dealSharesFor C cfg s k rnd).map fun x => (x.1, x.2.withLss l) := by
  unfold dealSharesFor
  simp only [CState.withLss]
  cases s.hrsMeta k with
  | some ref => rfl
  | none => cases rnd.secret <;> rfl

theorem metaFor_withLss (s : CState) (l : SignState) (k kd : HRST) (rnd : Rand) :
    metaFor C cfg (s.withLss l) k kd rnd = (metaFor C cfg s k kd rnd).map fun x => (x.1, x.2.withLss l) := by
  unfold metaFor
  rw [dealSharesFor_withLss]
  have e : (s.withLss l).hrsMeta = s.hrsMeta := rfl
  rw [e]
  cases s.hrsMeta k with
  | some ref => rfl
  | none => cases dealSharesFor C cfg s kd rnd <;> rfl

theorem setSlot_withLss (s : CState) (l : SignState) (ref : Nat) (i : Int) (p : PeerMeta) :
    (s.withLss l).setSlot ref i p = (s.setSlot ref i p).map fun x => x.withLss l := by
  unfold CState.setSlot
  have e : (s.withLss l).heap = s.heap := rfl
  rw [e]
  cases s.heap[ref]? with
  | none => rfl
  | some m => cases hg : goIndex m.peers i <;> simp only [hg] <;> rfl

theorem getPart_withLss (s : CState) (l : SignState) (req : GetPartReq) (rnd : Rand) :
    getPart C cfg (s.withLss l) req rnd = ((getPart C cfg s req rnd).1, (getPart C cfg s req rnd).2.withLss l) := by
  unfold getPart
  simp only [metaFor_withLss]
  cases metaFor C cfg s req.key req.key rnd with
  | none => rfl
  | some x =>
    obtain ⟨ref, s1⟩ := x
    simp only [Option.map_some]
    have e : (s1.withLss l).heap = s1.heap := rfl
    rw [e]
    cases s1.heap[ref]? with
    | none => rfl
    | some m =>
      simp only
      cases goIndex m.dealtShares (cfg.id - 1) with
      | none => rfl
      | some sh =>
        simp only [setSlot_withLss]
        cases s1.setSlot ref (cfg.id - 1) ⟨sh, C.scalarMultiplyBase m.secret⟩ with
        | none => rfl
        | some s2 =>
          simp only [Option.map_some]
          cases cfg.peers req.id with
          | none => rfl
          | some pub =>
            simp only
            cases goIndex m.dealtShares (req.id - 1) with
            | none => rfl
            | some part =>
              simp only
              cases C.rsaEncrypt pub rnd.enc part with
              | none => rfl
              | some enc =>
                simp only
                cases C.rsaSign cfg.rsaKey rnd.sig ⟨cfg.id, some (C.scalarMultiplyBase m.secret), some enc⟩ <;> rfl

theorem setPart_withLss (s : CState) (l : SignState) (req : SetPartReq) (rnd : Rand) :
    setPart C cfg (s.withLss l) req rnd = ((setPart C cfg s req rnd).1, (setPart C cfg s req rnd).2.withLss l) := by
  unfold setPart
  cases req.sourceSig with
  | none => rfl
  | some sig =>
    simp only
    cases cfg.peers req.sourceID with
    | none => rfl
    | some pub =>
      simp only
      split
      · rfl
      · simp only [metaFor_withLss]
        cases metaFor C cfg s req.key ⟨req.height, req.round, req.step, GoTime.zero.unixNano⟩ rnd with
        | none => rfl
        | some x =>
          obtain ⟨ref, s1⟩ := x
          simp only [Option.map_some]
          cases C.rsaDecrypt cfg.rsaKey req.encrypted.bytes with
          | none => rfl
          | some sh =>
            simp only [setSlot_withLss]
            cases s1.setSlot ref (req.sourceID - 1) ⟨sh, req.ephemeralPublic.bytes⟩ <;> rfl

theorem getPartsLoop_withLss (k : HRST) (l : SignState) : ∀ (order : List Int) (rnd : Nat → Rand) (s : CState)
    (acc : List SecretPart), getPartsLoop C cfg k order rnd (s.withLss l) acc =
      ((getPartsLoop C cfg k order rnd s acc).1, (getPartsLoop C cfg k order rnd s acc).2.withLss l) := by
  intro order
  induction order with
  | nil => intro rnd s acc; rfl
  | cons p order ih =>
    intro rnd s acc
    simp only [getPartsLoop]
    split
    · exact ih _ _ _
    · rw [getPart_withLss]
      generalize getPart C cfg s ⟨p, k.height, k.round, k.step, GoTime.ofUnixNano k.timestamp⟩ (rnd 0) = x
      obtain ⟨o, s'⟩ := x
      cases o with
      | ok part => exact ih _ _ _
      | err e => rfl
      | panic => rfl

theorem getParts_withLss (k : HRST) (l : SignState) (order : List Int) (rnd : Nat → Rand) (s : CState) :
    getParts C cfg k order rnd (s.withLss l) =
      ((getParts C cfg k order rnd s).1, (getParts C cfg k order rnd s).2.withLss l) := by
  unfold getParts
  split
  · rfl
  · exact getPartsLoop_withLss C cfg k l _ _ _ _

/-- A cosigner whose last sign state is `l` makes a new share signature of `bs`, a message for the block of `k`. -/
def SignsAnew (l : SignState) (bs : Bytes) (k : HRST) : Prop :=
  l.hrs ≺ k.hrs ∨ (l.hrs = k.hrs ∧ l.signature ≠ none ∧
    ∃ b0, l.signBytes = some b0 ∧ bs ≠ b0 ∧ onlyDifferByTimestamp l.step b0 bs = none)

theorem sign_anew {s : CState} {bs : Bytes} {k : HRST} (hu : unpackHRST bs = .ok k) (h : SignsAnew s.lss bs k) :
    sign C cfg s bs = signFresh C cfg s bs k := by
  unfold sign
  rw [hu]
  simp only
  rcases h with h | ⟨h, h1, b0, h2, h3, h4⟩
  · have : s.lss.checkHRS k = .ok false := by
      unfold SignState.checkHRS
      unfold HRS.lt SignState.hrs HRST.hrs at h
      simp only at h
      (repeat' split) <;> first | rfl | omega
    rw [this]
  · have : s.lss.checkHRS k = .ok true := by
      unfold SignState.hrs HRST.hrs at h
      simp only [HRS.mk.injEq] at h
      obtain ⟨e1, e2, e3⟩ := h
      unfold SignState.checkHRS
      rw [e1, e2, e3, h2]
      cases hs : s.lss.signature with
      | none => exact absurd hs h1
      | some sg => simp
    rw [this, h2]
    simp only [Slice.bytes, Option.getD_some, if_neg h3, h4]

theorem save_le {l : SignState} {r : SSC} (h : l.hrs ≼ r.hrs) :
    (l.save r).1 = none ∨ ∃ x, (l.save r).1 = some (.sameHRS x) := by
  rcases h with h | h
  · right
    unfold SignState.hrs SSC.hrs at h
    simp only [HRS.mk.injEq] at h
    obtain ⟨e1, e2, e3⟩ := h
    refine ⟨⟨r.height, r.round, r.step⟩, ?_⟩
    unfold SignState.save SignState.getErrorIfLessOrEqual
    simp [e1, e2, e3]
  · exact .inl ((SignState.save_ok_iff _ _).2 h)

/-- The answer of a new share signature does not depend on the last sign state. -/
theorem signFresh_withLss {s : CState} {bs : Bytes} {k : HRST} {l : SignState} (h : s.lss.hrs ≼ k.hrs) (hl : l.hrs ≼ k.hrs) :
    (signFresh C cfg (s.withLss l) bs k).1 = (signFresh C cfg s bs k).1 ∧
    ∃ l', (signFresh C cfg (s.withLss l) bs k).2 = (signFresh C cfg s bs k).2.withLss l' ∧
      (l.hrs = k.hrs → ∃ e, l' = { l with ephemeralPublic := e }) := by
  unfold signFresh
  have e : (s.withLss l).hrsMeta = s.hrsMeta := rfl
  have e' : (s.withLss l).heap = s.heap := rfl
  rw [e, e']
  cases s.hrsMeta k with
  | none => exact ⟨rfl, l, rfl, fun _ => ⟨_, rfl⟩⟩
  | some ref =>
    simp only
    cases s.heap[ref]? with
    | none => exact ⟨rfl, l, rfl, fun _ => ⟨_, rfl⟩⟩
    | some m =>
      simp only
      split
      · exact ⟨rfl, l, rfl, fun _ => ⟨_, rfl⟩⟩
      split
      · exact ⟨rfl, l, rfl, fun _ => ⟨_, rfl⟩⟩
      generalize C.signWithShare bs cfg.shareKey (C.addScalars (m.used.map (·.share))) cfg.pubKeyBytes
        (C.addElements (m.used.map (·.ephemeralSecretPublicKey))) = sig
      generalize C.addElements (m.used.map (·.ephemeralSecretPublicKey)) = ephPub
      have h1 := save_le (l := { s.lss with ephemeralPublic := some ephPub })
        (r := ⟨k.height, k.round, k.step, some sig, some bs⟩) h
      have h2 := save_le (l := { l with ephemeralPublic := some ephPub })
        (r := ⟨k.height, k.round, k.step, some sig, some bs⟩) hl
      have h3 : l.hrs = k.hrs → (SignState.save { l with ephemeralPublic := some ephPub }
          ⟨k.height, k.round, k.step, some sig, some bs⟩).2 = { l with ephemeralPublic := some ephPub } := by
        intro he
        refine SignState.save_err _ _ ?_
        show ¬ l.hrs ≺ k.hrs
        rw [he]; exact HRS.lt_irrefl _
      have el : (s.withLss l).lss = l := rfl
      rw [el]
      generalize SignState.save { s.lss with ephemeralPublic := some ephPub }
        ⟨k.height, k.round, k.step, some sig, some bs⟩ = x1 at *
      generalize SignState.save { l with ephemeralPublic := some ephPub }
        ⟨k.height, k.round, k.step, some sig, some bs⟩ = x2 at *
      obtain ⟨o1, l1⟩ := x1
      obtain ⟨o2, l2⟩ := x2
      simp only at h1 h2 h3
      rcases h1 with rfl | ⟨y1, rfl⟩ <;> rcases h2 with rfl | ⟨y2, rfl⟩ <;>
        exact ⟨rfl, l2, rfl, fun he => ⟨some ephPub, h3 he⟩⟩

theorem setPartsAndSign_withLss {bs : Bytes} {k k0 : HRST} {l : SignState} (hu : unpackHRST bs = .ok k)
    (hl : SignsAnew l bs k) : ∀ (parts : List SecretPart) (rnd : Nat → Rand) (s : CState), SignsAnew s.lss bs k →
    (setPartsAndSign C cfg k0 bs parts rnd (s.withLss l)).1 = (setPartsAndSign C cfg k0 bs parts rnd s).1 ∧
    ∃ l', (setPartsAndSign C cfg k0 bs parts rnd (s.withLss l)).2 =
        (setPartsAndSign C cfg k0 bs parts rnd s).2.withLss l' ∧
      (l.hrs = k.hrs → ∃ e, l' = { l with ephemeralPublic := e }) := by
  have hle : ∀ l : SignState, SignsAnew l bs k → l.hrs ≼ k.hrs := by
    intro l h
    rcases h with h | ⟨h, _⟩
    · exact .inr h
    · exact .inl h
  intro parts
  induction parts with
  | nil =>
    intro rnd s hs
    simp only [setPartsAndSign]
    rw [sign_anew C cfg hu hs, sign_anew C cfg (s := s.withLss l) hu hl]
    exact signFresh_withLss C cfg (hle _ hs) (hle _ hl)
  | cons p parts ih =>
    intro rnd s hs
    simp only [setPartsAndSign]
    rw [setPart_withLss]
    have hp : (setPart C cfg s (p.toSetReq k0) (rnd 0)).2.lss = s.lss :=
      (setPart_step (C := C) (cfg := cfg) (s := s) (req := p.toSetReq k0) (rnd := rnd 0) rfl).2.lss
    generalize setPart C cfg s (p.toSetReq k0) (rnd 0) = x at hp
    obtain ⟨o, s'⟩ := x
    simp only at hp
    cases o with
    | ok u => exact ih _ _ (by rw [hp]; exact hs)
    | err e => exact ⟨rfl, l, rfl, fun _ => ⟨_, rfl⟩⟩
    | panic => exact ⟨rfl, l, rfl, fun _ => ⟨_, rfl⟩⟩

end

/-- The records made by the calls for one key. -/
theorem step_keys {C : Crypto} {cfg : CosignerCfg} {s s' : CState} {op : CosOp} {out : Out CosResp} {P : HRST → Prop}
    (h : s.step C cfg op = (out, s')) (hs : ∀ k ref, s.hrsMeta k = some ref → P k)
    (hg : ∀ req rnd, op = .getPart req rnd → P req.key)
    (hp : ∀ req rnd, op = .setPart req rnd → P req.key ∧ P ⟨req.height, req.round, req.step, GoTime.zero.unixNano⟩) :
    ∀ k ref, s'.hrsMeta k = some ref → P k := by
  intro k ref hk
  rcases step_cases h with ⟨req, rnd, rfl, hpt⟩ | ⟨req, rnd, rfl, _, hpt⟩ | ⟨bs, r, k, ref, m, rfl, _, hf⟩ |
    ⟨_, _, _, _, _, hc⟩ | ⟨_, _, _, rfl⟩ | ⟨ssc, rfl, rfl, _⟩
  · rcases hpt.maps.2.1 k ref hk with h1 | ⟨h0, _, _⟩ | ⟨h0, _⟩
    · exact hs k ref h1
    · rw [h0]; exact hg _ _ rfl
    · rcases h0 with h0 | h0 <;> rw [h0] <;> exact hg _ _ rfl
  · rcases hpt.maps.2.1 k ref hk with h1 | ⟨h0, _, _⟩ | ⟨h0, _⟩
    · exact hs k ref h1
    · rw [h0]; exact (hp _ _ rfl).1
    · rcases h0 with h0 | h0 <;> rw [h0]
      · exact (hp _ _ rfl).1
      · exact (hp _ _ rfl).2
  · rw [hf.pruned] at hk
    split at hk
    · cases hk
    · exact hs _ _ hk
  · rw [hc.state] at hk; exact hs k ref hk
  · exact hs k ref hk
  · exact hs k ref hk

theorem getPartsLoop_keys {C : Crypto} {cfg : CosignerCfg} {k : HRST} (hi : IsI64 k.timestamp) {P : HRST → Prop} (hk : P k) :
    ∀ (order : List Int) (rnd : Nat → Rand) (s : CState) (acc : List SecretPart),
      (∀ k ref, s.hrsMeta k = some ref → P k) →
      ∀ k' ref, (getPartsLoop C cfg k order rnd s acc).2.hrsMeta k' = some ref → P k' := by
  have e : ∀ p, GetPartReq.key ⟨p, k.height, k.round, k.step, GoTime.ofUnixNano k.timestamp⟩ = k := by
    intro p
    unfold GetPartReq.key
    simp only [ofUnixNano_unixNano hi]
  intro order
  induction order with
  | nil => intro rnd s acc h; exact h
  | cons p order ih =>
    intro rnd s acc h
    simp only [getPartsLoop]
    split
    · exact ih _ _ _ h
    · have h1 : ∀ k' ref, (getPart C cfg s ⟨p, k.height, k.round, k.step, GoTime.ofUnixNano k.timestamp⟩ (rnd 0)).2.hrsMeta k' =
          some ref → P k' :=
        step_keys (C := C) (cfg := cfg) (op := .getPart _ (rnd 0)) (out := _) rfl h
          (fun req r' he => by
            simp only [CosOp.getPart.injEq] at he
            rw [← he.1, e]; exact hk) (fun _ _ he => by cases he)
      generalize getPart C cfg s ⟨p, k.height, k.round, k.step, GoTime.ofUnixNano k.timestamp⟩ (rnd 0) = x at h1
      obtain ⟨o, s'⟩ := x
      cases o with
      | ok part => exact ih _ _ _ h1
      | err e => exact h1
      | panic => exact h1

theorem getParts_keys {C : Crypto} {cfg : CosignerCfg} {k : HRST} (hi : IsI64 k.timestamp) {P : HRST → Prop} (hk : P k)
    (order : List Int) (rnd : Nat → Rand) (s : CState) (h : ∀ k ref, s.hrsMeta k = some ref → P k) :
    ∀ k' ref, (getParts C cfg k order rnd s).2.hrsMeta k' = some ref → P k' := by
  unfold getParts
  split
  · exact h
  · exact getPartsLoop_keys hi hk _ _ _ _ h

theorem setPartsAndSign_keys {C : Crypto} {cfg : CosignerCfg} {k : HRST} {bs : Bytes} (hi : IsI64 k.timestamp)
    {P : HRST → Prop} (hk : P k) (hz : P ⟨k.height, k.round, k.step, GoTime.zero.unixNano⟩) :
    ∀ (parts : List SecretPart) (rnd : Nat → Rand) (s : CState), (∀ k ref, s.hrsMeta k = some ref → P k) →
      ∀ k' ref, (setPartsAndSign C cfg k bs parts rnd s).2.hrsMeta k' = some ref → P k' := by
  intro parts
  induction parts with
  | nil =>
    intro rnd s h
    exact step_keys (C := C) (cfg := cfg) (op := .sign bs) (out := _) rfl h (fun _ _ he => by cases he)
      (fun _ _ he => by cases he)
  | cons p parts ih =>
    intro rnd s h
    simp only [setPartsAndSign]
    have h1 : ∀ k' ref, (setPart C cfg s (p.toSetReq k) (rnd 0)).2.hrsMeta k' = some ref → P k' :=
      step_keys (C := C) (cfg := cfg) (op := .setPart _ (rnd 0)) (out := _) rfl h (fun _ _ he => by cases he)
        (fun req r' he => by
          simp only [CosOp.setPart.injEq] at he
          rw [← he.1]
          refine ⟨?_, hz⟩
          have : (p.toSetReq k).key = k := by
            unfold SetPartReq.key SecretPart.toSetReq
            simp only [ofUnixNano_unixNano hi]
          rw [this]; exact hk)
    generalize setPart C cfg s (p.toSetReq k) (rnd 0) = x at h1
    obtain ⟨o, s'⟩ := x
    cases o with
    | ok part => exact ih _ _ h1
    | err e => exact h1
    | panic => exact h1

/-- Cosigners at the block of `k` put below it. -/
def lower (k : HRST) (st : Nat → CState) (p : Nat) : CState :=
  if (st p).lss.hrs = k.hrs then (st p).withLss ⟨k.height - 1, 0, 0, none, none, none, fun _ => none⟩ else st p

theorem lower_rest (k : HRST) (st : Nat → CState) (p : Nat) :
    st p = (lower k st p).withLss (st p).lss ∧ (lower k st p).hrsMeta = (st p).hrsMeta ∧
    (lower k st p).heap = (st p).heap := by
  unfold lower
  split <;> exact ⟨rfl, rfl, rfl⟩

theorem lower_lss {k : HRST} {st : Nat → CState} {p : Nat} (h : (st p).lss.hrs ≼ k.hrs) : (lower k st p).lss.hrs ≺ k.hrs := by
  unfold lower
  split
  · refine Or.inl ?_
    show k.height - 1 < k.height
    omega
  · next hne =>
    rcases h with h | h
    · exact absurd h hne
    · exact h

theorem lower_of_lt {k : HRST} {st : Nat → CState} {p : Nat} (h : (st p).lss.hrs ≺ k.hrs) : lower k st p = st p := by
  unfold lower
  rw [if_neg]
  intro e
  rw [e] at h
  exact HRS.lt_irrefl _ h

theorem signsAnew_le {l : SignState} {bs : Bytes} {k : HRST} (h : SignsAnew l bs k) : l.hrs ≼ k.hrs := by
  rcases h with h | ⟨h, _⟩
  · exact .inr h
  · exact .inl h

/-- A round of cosigners that make new share signatures gives what it would give below the block. -/
theorem roundShares_lower {C : Crypto} {cfg : Nat → CosignerCfg} {ps : List Nat} {leader n : Nat} {k : HRST} {bs : Bytes}
    {order : Nat → List Int} {mapOrder : Nat → List Nat} {rnd1 rnd2 : Nat → Nat → Rand} {st : Nat → CState}
    (hu : unpackHRST bs = .ok k) (hl : leader ∈ ps) (h : ∀ p ∈ ps, SignsAnew (st p).lss bs k) :
    (roundShares C cfg ps leader n k bs order mapOrder rnd1 rnd2 st).1 =
      (roundShares C cfg ps leader n k bs order mapOrder rnd1 rnd2 (lower k st)).1 ∧
    ∀ p ∈ ps, ∃ l', (roundShares C cfg ps leader n k bs order mapOrder rnd1 rnd2 st).2 p =
        ((roundShares C cfg ps leader n k bs order mapOrder rnd1 rnd2 (lower k st)).2 p).withLss l' ∧
      ((st p).lss.hrs = k.hrs → ∃ e, l' = { (st p).lss with ephemeralPublic := e }) ∧
      ((st p).lss.hrs ≺ k.hrs → l' = ((roundShares C cfg ps leader n k bs order mapOrder rnd1 rnd2 (lower k st)).2 p).lss) := by
  have hg : ∀ p, getParts C (cfg p) k (order p) (rnd1 p) (st p) =
      ((getParts C (cfg p) k (order p) (rnd1 p) (lower k st p)).1,
       (getParts C (cfg p) k (order p) (rnd1 p) (lower k st p)).2.withLss (st p).lss) := by
    intro p
    conv_lhs => rw [(lower_rest k st p).1]
    exact getParts_withLss _ _ _ _ _ _ _
  have hgl : ∀ p, (getParts C (cfg p) k (order p) (rnd1 p) (lower k st p)).2.lss = (lower k st p).lss := by
    intro p
    have := getParts_withLss C (cfg p) k (lower k st p).lss (order p) (rnd1 p) (lower k st p)
    rw [withLss_self] at this
    have h2 := congrArg (fun x => x.2.lss) this
    exact h2
  have hs : ∀ p ∈ ps, ∀ parts, 
      (setPartsAndSign C (cfg p) k bs parts (rnd2 p) (getParts C (cfg p) k (order p) (rnd1 p) (st p)).2).1 =
      (setPartsAndSign C (cfg p) k bs parts (rnd2 p) (getParts C (cfg p) k (order p) (rnd1 p) (lower k st p)).2).1 ∧
      ∃ l', (setPartsAndSign C (cfg p) k bs parts (rnd2 p) (getParts C (cfg p) k (order p) (rnd1 p) (st p)).2).2 =
        (setPartsAndSign C (cfg p) k bs parts (rnd2 p) (getParts C (cfg p) k (order p) (rnd1 p) (lower k st p)).2).2.withLss l' ∧
      ((st p).lss.hrs = k.hrs → ∃ e, l' = { (st p).lss with ephemeralPublic := e }) := by
    intro p hp parts
    rw [hg p]
    exact setPartsAndSign_withLss C (cfg p) hu (h p hp) parts (rnd2 p) _
      (by rw [hgl]; exact .inl (lower_lss (signsAnew_le (h p hp))))
  have hparts : (fun q : Nat => ((q : Int), okParts (getParts C (cfg q) k (order q) (rnd1 q) (st q)).1)) =
      (fun q : Nat => ((q : Int), okParts (getParts C (cfg q) k (order q) (rnd1 q) (lower k st q)).1)) := by
    funext q
    rw [hg q]
  unfold roundShares
  simp only [hparts]
  refine ⟨?_, ?_⟩
  · rw [(hs leader hl _).1]
    congr 1
    unfold shareArray
    refine List.map_congr_left fun i _ => ?_
    by_cases hi : i + 1 ∈ ps
    · rw [if_pos hi, if_pos hi]
      simp only
      rw [(hs (i + 1) hi _).1]
    · rw [if_neg hi, if_neg hi]
  · intro p hp
    simp only [if_pos hp]
    by_cases hlt : (st p).lss.hrs ≺ k.hrs
    · refine ⟨_, ?_, fun he => ?_, fun _ => rfl⟩
      · rw [withLss_self, lower_of_lt hlt]
      · rw [he] at hlt; exact absurd hlt (HRS.lt_irrefl _)
    · obtain ⟨l', e1, e2⟩ := (hs p hp (partsFor ((mapOrder p).map fun q : Nat =>
        ((q : Int), okParts (getParts C (cfg q) k (order q) (rnd1 q) (lower k st q)).1)) (p : Int))).2
      exact ⟨l', e1, e2, fun hc => absurd hc hlt⟩

/-- A call on a leader that has not started the block, or is to sign it with another time. -/
theorem begin_start (C : Crypto) (vcfg : ValidatorCfg) {v : VState} {id : Nat} {b : Block} (hidle : v.calls id = none)
    (hi : v.init.hrs ≺ b.hrs ∨ (v.init.hrs = b.hrs ∧ existingSignature v.lss b = .ok none)) :
    ∃ again init', v.begin C vcfg id b = (.startRound id b again, ({ v with init := init' } : VState).setPhase id b .round) ∧
      init'.hrs = b.hrs ∧ (v.init.hrs = b.hrs → init' = v.init) := by
  unfold VState.begin
  rw [hidle]
  simp only [VState.step, hidle]
  rcases hi with hi | ⟨hi, he⟩
  · have hs : v.init.save (SSC.new b.height b.round b.step) = (none, _) :=
      SignState.save_ok v.init (SSC.new b.height b.round b.step) hi
    rw [hs]
    exact ⟨_, _, rfl, rfl, fun e => by rw [e] at hi; exact absurd hi (HRS.lt_irrefl _)⟩
  · have h2 : (v.init.save (SSC.new b.height b.round b.step)).2 = v.init :=
      SignState.save_err _ _ (by show ¬ v.init.hrs ≺ b.hrs; rw [hi]; exact HRS.lt_irrefl _)
    have h1 : ∃ x, (v.init.save (SSC.new b.height b.round b.step)).1 = some (.sameHRS x) := by
      rcases save_le (l := v.init) (r := SSC.new b.height b.round b.step) (.inl hi) with h | h
      · rw [SignState.save_ok_iff] at h
        have h' : v.init.hrs ≺ b.hrs := h
        rw [hi] at h'
        exact absurd h' (HRS.lt_irrefl _)
      · exact h
    generalize v.init.save (SSC.new b.height b.round b.step) = y at h1 h2
    obtain ⟨o, i'⟩ := y
    obtain ⟨x, hx⟩ := h1
    simp only at h2 hx
    subst h2 hx
    refine ⟨true, v.init, ?_, hi, fun _ => rfl⟩
    simp only [VState.wait, VState.setPhase, if_true, VState.step, he]
    congr 2
    funext i
    by_cases h : i = id <;> simp [h]

/-- The end of a call whose round gave a signature. -/
theorem assembleAndSave_le (C : Crypto) (vcfg : ValidatorCfg) {v : VState} {id : Nat} {b : Block} {shares : List Bytes}
    {eph sig : Bytes} (hc : v.calls id = some (b, .round))
    (ha : assemble C vcfg.threshold vcfg.pubKey b.signBytes shares eph = .ok sig) (hl : v.lss.hrs ≼ b.hrs) :
    v.assembleAndSave C vcfg id shares eph = (.ret id b (some sig) b.timestamp none,
      ⟨(v.lss.save (b.record sig)).2, v.init, fun i => if i = id then none else v.calls i, v.emitted ++ [b.record sig]⟩) := by
  have h1 := save_le (l := v.lss) (r := b.record sig) hl
  unfold VState.assembleAndSave
  simp only [VState.step, hc, ha, VState.setPhase, if_true]
  generalize v.lss.save (b.record sig) = y at h1
  obtain ⟨o, l'⟩ := y
  have hf : ∀ f : Nat → Option (Block × Phase), (∀ i, i ≠ id → f i = v.calls i) →
      (fun i => if i = id then none else f i) = (fun i => if i = id then none else v.calls i) := by
    intro f hf
    funext i
    by_cases h : i = id
    · simp [h]
    · simp only [if_neg h]; exact hf i h
  simp only at h1
  rcases h1 with rfl | ⟨x, rfl⟩ <;> simp only [if_true, VState.finish] <;> congr 2 <;> apply hf <;> intro i h <;> simp [h]

section
variable {C : Crypto} {F G : Type} [Field F] [AddCommGroup G] [Module F G] {L : Lawful C F G}
  {pair : Bytes → Bytes → Prop} {n t : Nat} {cfg : Nat → CosignerCfg} {x : F} {kc : List F} {rsaPub : Nat → Bytes}

/-- Attempts at other sign bytes with the same key, seen from cosigners put below the block. -/
theorem TryInv.lower {ps ps' : List Nat} (hps : ∀ p, p ∈ ps' ↔ p ∈ ps) {k : HRST} {bs bs' : Bytes} {sec r : Nat → Bytes} {H : List Nat} {st : Nat → CState}
    {ans : Nat → List (List SecretPart)} (h : TryInv L n t cfg x kc rsaPub ps k bs sec r H ⟨st, ans⟩) :
    TryInv L n t cfg x kc rsaPub ps' k bs' sec r H ⟨Horcrux.lower k st, ans⟩ := by
  constructor
  · intro p h1 h2 hp
    obtain ⟨a, b, c⟩ := h.new p h1 h2 hp
    exact ⟨by show (Horcrux.lower k st p).hrsMeta k = none; rw [(lower_rest k st p).2.1]; exact a, lower_lss (.inr b), c⟩
  · exact h.secret
  · intro p h1 h2 hp
    obtain ⟨D, d0, d1, ⟨ref, d2, d3⟩, d4⟩ := h.held p h1 h2 hp
    refine ⟨D, d0, fun q hq => ⟨(d1 q hq).1, (d1 q hq).2.imp (hps q).2 id⟩, ⟨ref, ?_, ?_⟩, .inl (lower_lss ?_)⟩
    · show (Horcrux.lower k st p).hrsMeta k = _; rw [(lower_rest k st p).2.1]; exact d2
    · show (Horcrux.lower k st p).heap[ref]? = _; rw [(lower_rest k st p).2.2]; exact d3
    · rcases d4 with d4 | ⟨_, d4⟩
      · exact .inr d4
      · exact .inl d4.hrs
  · exact h.answers

/-- A sign request after any attempts with its key, where every participant makes a new share signature. -/
theorem signBlock_core (hS : Setup C L pair n t cfg x kc rsaPub) (hn : 2 ≤ n) {s : Sys} {q : Req}
    (hq : Servable n t q) {sec r : Nat → Bytes} {H : List Nat} {ans : Nat → List (List SecretPart)}
    (hinv : TryInv L n t cfg x kc rsaPub q.ps q.block.key q.block.signBytes sec r H ⟨lower q.block.key s.cs, ans⟩)
    (hanew : ∀ p ∈ q.ps, SignsAnew (s.cs p).lss q.block.signBytes q.block.key)
    (hidle : (s.vs q.leader).calls q.id = none)
    (hi : (s.vs q.leader).init.hrs ≺ q.block.hrs ∨
      ((s.vs q.leader).init.hrs = q.block.hrs ∧ existingSignature (s.vs q.leader).lss q.block = .ok none))
    (hl : (s.vs q.leader).lss.hrs ≼ q.block.hrs) :
    ∃ sig s' init' sec' r', s.signBlock C ⟨t, L.pt (x • L.B)⟩ cfg n q =
        (.ret q.id q.block (some sig) q.block.timestamp none, s') ∧
      C.verify (L.pt (x • L.B)) q.block.signBytes sig = true ∧
      (∀ p ∈ H, sec' p = sec p ∧ r' p = r p) ∧
      (∀ p ∈ q.ps, p ∉ H → ∃ i, (q.rnd1 p i).secret = some (sec' p)) ∧
      sig = L.pt (jointR L n sec' q.ps) ++ L.sc (((idsOf n q.ps).map fun p => L.val (sec' p)).sum +
        L.chal (L.pt (jointR L n sec' q.ps)) (L.pt (x • L.B)) q.block.signBytes * x) ∧
      s'.cs = (roundShares C cfg q.ps q.leader n q.block.key q.block.signBytes q.order q.mapOrder q.rnd1 q.rnd2 s.cs).2 ∧
      (∀ p, p ∉ q.ps → s'.cs p = s.cs p) ∧
      (∀ p ∈ q.ps, (s.cs p).lss.hrs = q.block.hrs → ∃ e, (s'.cs p).lss = { (s.cs p).lss with ephemeralPublic := e }) ∧
      (∀ p ∈ q.ps, (s.cs p).lss.hrs ≺ q.block.hrs →
        SignedAs L n t sec' r' q.ps x kc q.block.key q.block.signBytes p (s'.cs p)) ∧
      init'.hrs = q.block.hrs ∧
      s'.vs = (fun p => if p = q.leader then ⟨((s.vs q.leader).lss.save (q.block.record sig)).2, init',
        fun i => if i = q.id then none else (s.vs q.leader).calls i,
        (s.vs q.leader).emitted ++ [q.block.record sig]⟩ else s.vs p) ∧
      ((∀ p, 1 ≤ p → p ≤ n → p ∉ q.ps → (s.cs p).hrsMeta q.block.key = none ∧ (s.cs p).lss.hrs ≼ q.block.hrs) →
        ∃ ans', ∀ ps' bs', (∀ p, p ∈ ps' ↔ p ∈ q.ps) →
          TryInv L n t cfg x kc rsaPub ps' q.block.key bs' sec' r' q.ps ⟨lower q.block.key s'.cs, ans'⟩) := by
  have hord : ∀ p, ∃ o : List Nat, o.Perm (List.range' 1 n) ∧ q.order p = o.map (fun i : Nat => (i : Int)) :=
    fun p => perm_cast (hq.order p)
  choose ord hord1 hord2 using hord
  obtain ⟨shares, eph, st', sig, h1, h2, h3, h4, sec', r', h5, h6, h7, h8, h9, _, h10⟩ := round_full hS hn hq.nodup hq.ids
    hq.quorum hq.leads (k := q.block.key) (unixNano_isI64 _) hq.bytes hord1 hq.mapOrder (rnd2 := q.rnd2) hq.random hinv
  have hord3 : q.order = fun p => (ord p).map (fun i : Nat => (i : Int)) := funext hord2
  rw [← hord3] at h1
  obtain ⟨g1, g2⟩ := roundShares_lower (C := C) (cfg := cfg) (n := n) (order := q.order) (mapOrder := q.mapOrder)
    (rnd1 := q.rnd1) (rnd2 := q.rnd2) hq.bytes hq.leads hanew
  rw [h1] at g1 g2
  have hsig : sig = L.pt (jointR L n sec' q.ps) ++ L.sc (((idsOf n q.ps).map fun p => L.val (sec' p)).sum +
        L.chal (L.pt (jointR L n sec' q.ps)) (L.pt (x • L.B)) q.block.signBytes * x) := by
    have h := assemble_honest hS hq.nodup hq.ids hq.quorum (sec := sec') (r := r') (bs := q.block.signBytes)
    have h' := h2
    rw [h8, h7, h, Out.ok.injEq] at h'
    exact h'.symm
  obtain ⟨again, init', b1, b2, b3⟩ := begin_start C ⟨t, L.pt (x • L.B)⟩ hidle hi
  have hcs : ∀ p, p ∉ q.ps → (roundShares C cfg q.ps q.leader n q.block.key q.block.signBytes q.order q.mapOrder q.rnd1
      q.rnd2 s.cs).2 p = s.cs p := by
    intro p hp
    unfold roundShares
    simp only [if_neg hp]
  have has := assembleAndSave_le C ⟨t, L.pt (x • L.B)⟩ (v := ({ s.vs q.leader with init := init' } : VState).setPhase q.id q.block .round)
    (id := q.id) (b := q.block) (by simp [VState.setPhase]) h2 hl
  refine ⟨sig, ⟨fun p => if p = q.leader then ⟨((s.vs q.leader).lss.save (q.block.record sig)).2, init',
        fun i => if i = q.id then none else (s.vs q.leader).calls i,
        (s.vs q.leader).emitted ++ [q.block.record sig]⟩ else s.vs p,
      (roundShares C cfg q.ps q.leader n q.block.key q.block.signBytes q.order q.mapOrder q.rnd1 q.rnd2 s.cs).2⟩,
    init', sec', r', ?_, h3, h5, h10, hsig, rfl, hcs, ?_, ?_, b2, rfl, ?_⟩
  · unfold Sys.signBlock
    rw [b1]
    simp only
    rw [g1]
    simp only
    rw [has]
    simp only [VState.setPhase]
    congr 2
    funext p
    by_cases hp : p = q.leader
    · simp only [if_pos hp]
      congr 1
      funext i
      by_cases h : i = q.id <;> simp [h]
    · simp only [if_neg hp]
  · intro p hp he
    obtain ⟨l', e1, e2, _⟩ := g2 p hp
    obtain ⟨e, he⟩ := e2 he
    refine ⟨e, ?_⟩
    show ((roundShares C cfg q.ps q.leader n q.block.key q.block.signBytes q.order q.mapOrder q.rnd1 q.rnd2 s.cs).2 p).lss = _
    rw [e1, ← he]; rfl
  · intro p hp hlt
    obtain ⟨l', e1, _, e2⟩ := g2 p hp
    have e3 := e2 hlt
    show SignedAs L n t sec' r' q.ps x kc q.block.key q.block.signBytes p
      ((roundShares C cfg q.ps q.leader n q.block.key q.block.signBytes q.order q.mapOrder q.rnd1 q.rnd2 s.cs).2 p)
    rw [e1, e3]
    exact h6 p hp
  · intro hout
    have hle : ∀ p, 1 ≤ p → p ≤ n → p ∉ q.ps → (lower q.block.key s.cs p).hrsMeta q.block.key = none ∧
        (lower q.block.key s.cs p).lss.hrs ≺ q.block.key.hrs := by
      intro p p1 p2 hp
      rw [(lower_rest _ _ _).2.1]
      exact ⟨(hout p p1 p2 hp).1, lower_lss (hout p p1 p2 hp).2⟩
    obtain ⟨ans', ha⟩ := h9 st' (fun _ _ => rfl) (fun p p1 p2 hp => by rw [h4 p hp]; exact hle p p1 p2 hp)
    refine ⟨ans', fun ps' bs' hps' => ?_⟩
    have ha := ha.lower hps' (bs' := bs')
    have hst : ∀ p, p ∈ q.ps → (roundShares C cfg q.ps q.leader n q.block.key q.block.signBytes q.order q.mapOrder q.rnd1
        q.rnd2 s.cs).2 p = (st' p).withLss ((roundShares C cfg q.ps q.leader n q.block.key q.block.signBytes q.order
          q.mapOrder q.rnd1 q.rnd2 s.cs).2 p).lss := by
      intro p hp
      obtain ⟨l', e1, _⟩ := g2 p hp
      rw [e1]; rfl
    have hlow : ∀ p, p ∈ q.ps → ((roundShares C cfg q.ps q.leader n q.block.key q.block.signBytes q.order q.mapOrder q.rnd1
        q.rnd2 s.cs).2 p).lss.hrs = q.block.key.hrs := by
      intro p hp
      obtain ⟨l', e1, e2, e3⟩ := g2 p hp
      rw [e1]
      show l'.hrs = _
      rcases signsAnew_le (hanew p hp) with h | h
      · obtain ⟨e, rfl⟩ := e2 h; exact h
      · rw [e3 h]; exact (h6 p hp).hrs
    have key : ∀ p, 1 ≤ p → p ≤ n →
        (lower q.block.key (roundShares C cfg q.ps q.leader n q.block.key q.block.signBytes q.order q.mapOrder q.rnd1
          q.rnd2 s.cs).2 p).hrsMeta = (lower q.block.key st' p).hrsMeta ∧
        (lower q.block.key (roundShares C cfg q.ps q.leader n q.block.key q.block.signBytes q.order q.mapOrder q.rnd1
          q.rnd2 s.cs).2 p).heap = (lower q.block.key st' p).heap := by
      intro p _ _
      rw [(lower_rest _ _ _).2.1, (lower_rest _ _ _).2.2, (lower_rest _ _ _).2.1, (lower_rest _ _ _).2.2]
      by_cases hp : p ∈ q.ps
      · rw [hst p hp]; exact ⟨rfl, rfl⟩
      · rw [hcs p hp, h4 p hp]
        exact ⟨(lower_rest _ _ _).2.1.symm, (lower_rest _ _ _).2.2.symm⟩
    constructor
    · intro p p1 p2 hp
      refine ⟨?_, lower_lss ?_, (ha.new p p1 p2 hp).2.2⟩
      · show (lower q.block.key _ p).hrsMeta _ = _
        rw [(key p p1 p2).1]
        exact (ha.new p p1 p2 hp).1
      · show ((roundShares C cfg q.ps q.leader n q.block.key q.block.signBytes q.order q.mapOrder q.rnd1 q.rnd2 s.cs).2 p).lss.hrs
          ≼ _
        rw [hcs p hp]; exact (hout p p1 p2 hp).2
    · exact ha.secret
    · intro p p1 p2 hp
      obtain ⟨D, d0, d1, ⟨ref, d2, d3⟩, _⟩ := ha.held p p1 p2 hp
      refine ⟨D, d0, d1, ⟨ref, ?_, ?_⟩, .inl (lower_lss (.inl (hlow p hp)))⟩
      · show (lower q.block.key _ p).hrsMeta _ = _
        rw [(key p p1 p2).1]; exact d2
      · show (lower q.block.key _ p).heap[ref]? = _
        rw [(key p p1 p2).2]; exact d3
    · exact ha.answers

end
end Horcrux
